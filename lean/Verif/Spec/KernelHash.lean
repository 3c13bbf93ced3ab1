import Verif.Model.Sha
import Verif.Spec.Shared
/-
csn with the kernel's hash interface (C88).
-/
namespace Csn.Props
open Csn.Race

/-- The digests a process gets when it hashes `ds` one after the other, each into a buffer of 32 bytes; they end if it is killed. -/
def digestsOf (H : Bytes → Id) : Kcapi → List Bytes → List Sys → List Id
  | _, [], _ => []
  | st, d :: ds, sys =>
    match shaOnce H H st d (List.replicate 32 0) sys with
    | (some x, st, sys) => x :: digestsOf H st ds sys
    | (none, _, _) => []

/-- The claim that a failing interface is made up for: a run that gets the right data from a server succeeds. -/
def MadeUpFor (H : Bytes → Id) : Prop :=
  ∀ (x : Bytes) (n k : Nat), x ≠ [] → x.length ≤ n →
    ((Job.mk n [.http] true [⟨0, x.length, H x⟩] [.read [] false, .http x .judged, .hash k, .write true 0]).run H).1 = .ok true

end Csn.Props
