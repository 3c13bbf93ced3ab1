import Verif.Spec.Race
import Verif.Spec.Args
/-
Which stores of Model/Race belong to the arguments of csn (C82).
-/
namespace Csn.Props
open Csn.Race Csn.Spec

/-- The source for the store argument `arg`: what a local store without usable index knows was found in its file, what one
with index knows is what the index describes. -/
def SourceOf (H : Bytes → Id) (w : World) (tpath arg : Bytes) : Source → Prop
  | .target => arg = tpath
  | .http => HttpArg tpath arg
  | .scanned es => ∃ path index i, LocalArg tpath arg path index ∧ w.dir path = some i ∧ ∀ s ∈ es, s.len ≠ 0 ∧ Matches H (w.data i) s
  | .side es => ∃ path index, LocalArg tpath arg path (some index) ∧ Describes w index es

end Csn.Props
