import Verif.Model.ToolRace
import Verif.Spec.Shared
/-
Several runs of csn-tool in the same directory at the same time (C89).
-/
namespace Csn.Props
open Csn

/-- One access to a file. -/
inductive FAcc where
  | look (path : Bytes) (b : Bool)
  | read (path : Bytes) (d : Bytes)
  | trunc (path : Bytes)
  | put (path : Bytes) (off : Nat) (b : UInt8)
  deriving DecidableEq, Repr

/-- The accesses of a step; data is written byte by byte. -/
def fileAccesses : ToolRace.Ev → List FAcc
  | .look o b => [.look o b]
  | .got i d => [.read i d]
  | .made o => [.trunc o]
  | .put o d _ => byBytes (.put o) 0 d

/-- What the files contain (`none`: there is no such file). -/
abbrev Files := Bytes → Option Bytes

/-- What a file contains afterwards. -/
def Files.set (f : Files) (path d : Bytes) : Files := fun p => if p = path then some d else f p

/-- What the files, at first `f`, contain in the end. -/
def filesAfter (f : Files) : List (Nat × FAcc) → Files
  | [] => f
  | (_, .trunc o) :: h => filesAfter (f.set o []) h
  | (_, .put o off b) :: h => filesAfter (f.set o (writeAt ((f o).getD []) off [b])) h
  | _ :: h => filesAfter f h

/-- Who looks for a file or reads it gets what is there. -/
def Truthful (f : Files) : List (Nat × FAcc) → Prop
  | [] => True
  | (_, .look o b) :: h => (f o).isSome = b ∧ Truthful f h
  | (_, .read i d) :: h => f i = some d ∧ Truthful f h
  | (_, .trunc o) :: h => Truthful (f.set o []) h
  | (_, .put o off b) :: h => Truthful (f.set o (writeAt ((f o).getD []) off [b])) h

/-- A run of csn-tool: the conversion with its key, inputs and outputs given, what the rest of the machine decides. -/
structure ToolJob where
  conv : Id → Bytes → Bytes
  items : List (Bytes × Option Bytes)
  ans : List ToolRace.Ans

/-- The result of a run and its steps. -/
def ToolJob.run (j : ToolJob) : Res Bool × List ToolRace.Ev := ToolRace.many j.conv j.items j.ans

/-- The run is asked to convert the chunk `id` in the file `i` to the file `o`. -/
def ToolJob.Asked (j : ToolJob) (i : Bytes) (id : Id) (o : Bytes) : Prop :=
  ∃ out, (i, out) ∈ j.items ∧ chunkIdFromPath i = some id ∧ out.or (derivedOutput i) = some o ∧ o ≠ str "-"

/-- The history is one of these runs, in any order. -/
structure ToolsTogether (jobs : Nat → ToolJob) (f : Files) (h : List (Nat × FAcc)) : Prop where
  does : ∀ p, Performs fileAccesses (jobs p).run.2 (doneBy p h)
  truth : Truthful f h

/-- The jobs agree: no input is an output, and those with the same output (`want`) make the same of their inputs. -/
structure Agree (jobs : Nat → ToolJob) (f want : Files) : Prop where
  apart : ∀ p q i id o i' out, (jobs p).Asked i id o → (i', out) ∈ (jobs q).items → o ≠ i'
  same : ∀ p i id o d, (jobs p).Asked i id o → f i = some d → want o = some ((jobs p).conv id d)

/-- The files of a world of Model/Tool. -/
def filesOf (w : World) : Files := fun p => (w.dir p).map w.data

/-- The result of a run; all ways in which a process is ended are the same here. -/
def orKilled : Res Bool → Res Bool
  | .ok a => .ok a
  | .stop _ => .stop .killed

end Csn.Props
