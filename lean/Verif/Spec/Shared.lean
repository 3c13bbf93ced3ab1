import Verif.Spec.Race
import Verif.Spec.Files
/-
Several runs of csn on the same target at the same time (C87).
-/
namespace Csn.Props
open Csn.Race
open Csn.Spec (slice)

/-- One byte of the target is read or written. -/
inductive Acc where
  | get (off : Nat) (b : UInt8)
  | put (off : Nat) (b : UInt8)
  deriving DecidableEq, Repr

/-- The bytes `d` from `off` on, one by one. -/
def byBytes {α : Type} (f : Nat → UInt8 → α) : Nat → Bytes → List α
  | _, [] => []
  | off, b :: d => f off b :: byBytes f (off + 1) d

/-- The bytes of the target that a step of csn reads or writes.  (Bytes that are read and then not used are left out.) -/
def accesses : Ev → List Acc
  | .wrote s d _ => byBytes .put s.off d
  | .kept s d => byBytes .get s.off d
  | .trusted none _ off d => byBytes .get off d
  | _ => []

/-- `as` are the accesses of the steps (`acc`), step after step; those of one step may come in any order. -/
inductive Performs {ε α : Type} (acc : ε → List α) : List ε → List α → Prop where
  | done : Performs acc [] []
  | step {e : ε} {log : List ε} {as bs : List α} : as.Perm (acc e) → Performs acc log bs → Performs acc (e :: log) (as ++ bs)

/-- What happens to the target: which process accesses it, and how. -/
abbrev Trace := List (Nat × Acc)

/-- The accesses of process `p`. -/
def doneBy {α : Type} (p : Nat) : List (Nat × α) → List α
  | [] => []
  | (q, a) :: h => if q = p then a :: doneBy p h else doneBy p h

/-- What the target, at first `f`, contains in the end. -/
def contents (f : Bytes) : Trace → Bytes
  | [] => f
  | (_, .get _ _) :: h => contents f h
  | (_, .put off b) :: h => contents (writeAt f off [b]) h

/-- Who reads a byte gets what is there. -/
def Coherent (f : Bytes) : Trace → Prop
  | [] => True
  | (_, .get off b) :: h => f[off]? = some b ∧ Coherent f h
  | (_, .put off b) :: h => Coherent (writeAt f off [b]) h

/-- The image has the regions of the index, and nothing else of a region's length has its ID; with the kernel's hash interface,
nothing else that is not longer. -/
def HasRegions (H : Bytes → Id) (kernel : Bool) (img : Bytes) (segs : List Seg) : Prop :=
  ∀ s ∈ segs, s.len ≠ 0 → s.off + s.len ≤ img.length ∧ H (slice img s.off s.len) = s.id ∧
    ∀ c : Bytes, c.length = s.len ∨ kernel = true ∧ c.length ≤ s.len → H c = s.id → c = slice img s.off s.len

/-- The local stores were right whenever they handed out something without comparing. -/
def SeedsRight (H : Bytes → Id) (log : List Ev) : Prop := ∀ k id off d, .trusted (some k) id off d ∈ log → H d = id

/-- A run of csn: the size of its buffer, its stores, whether it uses the
kernel's hash interface, the regions of its index and what the rest of the machine decides. -/
structure Job where
  room : Nat
  srcs : List Source
  kernel : Bool
  segs : List Seg
  ans : List Ans

/-- The run of a job: its result and its steps. -/
def Job.run (H : Bytes → Id) (j : Job) : Res Bool × List Ev :=
  ((sync ⟨H, j.kernel⟩ j.room j.srcs j.segs ⟨j.ans, []⟩).1, (sync ⟨H, j.kernel⟩ j.room j.srcs j.segs ⟨j.ans, []⟩).2.log)

/-- The history is one of these runs, in any order. -/
structure Together (H : Bytes → Id) (jobs : Nat → Job) (f : Bytes) (h : Trace) : Prop where
  does : ∀ p, Performs accesses ((jobs p).run H).2 (doneBy p h)
  coherent : Coherent f h

end Csn.Props
