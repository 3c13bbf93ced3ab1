import Verif.Model.Race
import Verif.Spec.Sync
/-
What can be said about csn while other processes change files (C82).
-/
namespace Csn.Props
open Csn.Race

/-- What csn takes for the chunk `id`: what hashes to it or, while the kernel's interface is used, what ends with such data. -/
def Takes (H : Bytes → Id) (kernel : Bool) (c : Bytes) (id : Id) : Prop := H c = id ∨ kernel = true ∧ ∃ k, H (c.drop k) = id

/-- The region a step finishes. -/
def finished : Ev → Option Seg
  | .wrote s _ true => some s
  | .kept s _ => some s
  | _ => none

/-- The region a step is about, whether it succeeds or not. -/
def touched : Ev → Option Seg
  | .wrote s _ _ => some s
  | .kept s _ => some s
  | _ => none

/-- The step `e` after the steps `a` is right.
`G` says which bytes csn may take for the chunk with an ID.
* What is written for a region is (if the write fails, the start of) a chunk `c` of the region's length; unless the region is
  empty, `c` may be taken for the region's chunk, or a store handed it out without looking.
* What is kept had the region's length and could be taken for its chunk when it was read.
* A local store without index hands out chunks without looking; it has seen a chunk with that ID and length there when it was
  scanned.  One with index has been scanned again, or it has found the chunk right before.
* The target hands out chunks without looking; csn has written or kept such a chunk there before.
* Only local stores with an index are scanned again. -/
def SoundAt (G : Bytes → Id → Prop) (srcs : List Source) (a : List Ev) : Ev → Prop
  | .wrote s d ok => ∃ c : Bytes, c.length = s.len ∧ d = c.take d.length ∧ (ok = true → d = c) ∧
      (s.len ≠ 0 → G c s.id ∨ ∃ k off, .trusted k s.id off c ∈ a)
  | .kept s d => d.length = s.len ∧ G d s.id
  | .trusted (some k) id off d =>
      (∃ es, srcs[k]? = some (.scanned es) ∧ ⟨off, d.length, id⟩ ∈ es) ∨
      ((∃ es, srcs[k]? = some (.side es)) ∧ (.rescan k ∈ a ∨ ∃ d', .right k id d' ∈ a ∧ d'.length = d.length))
  | .trusted none id off d => .target ∈ srcs ∧ ⟨off, d.length, id⟩ ∈ a.filterMap finished
  | .right k id d => G d id ∧ ∃ es, srcs[k]? = some (.side es)
  | .rescan k => ∃ es, srcs[k]? = some (.side es)

/-- What the target contains after the steps, if it contained `f` before. -/
def effect (l : List Ev) (f : Bytes) : Bytes :=
  l.foldl (fun f e => match e with
    | .wrote s d _ => writeAt f s.off d
    | _ => f) f

/-- All steps are right. -/
def SoundRun (G : Bytes → Id → Prop) (srcs : List Source) (l : List Ev) : Prop := ∀ a e b, l = a ++ e :: b → SoundAt G srcs a e

/-- Every step about a region is about the one that follows those finished before. -/
def OneByOne (segs : List Seg) (l : List Ev) : Prop := ∀ a e b, l = a ++ e :: b → ∀ s, touched e = some s → a.filterMap finished ++ [s] <+: segs

end Csn.Props
