import Verif.Model.Base
/-
What two runs have in common that differ in one more store at the end of the list.
-/
namespace Csn.Spec
open Csn

/-- The statistics printed at the end of the second run list one store more, without hits; everything else that the runs did is
the same. -/
def ExtraLine (a b : List Event) : Prop := ∃ evs q hs, a = evs ++ [.stats q hs] ∧ b = evs ++ [.stats q (hs ++ [some 0])]

/-- The two outcomes are the same: result, files, and what is left of the system calls, the memory and the network.  What the runs
did is the same up to the statistics, which a successful run prints. -/
def SameRun (a b : Res Bool × World) : Prop :=
  b.1 = a.1 ∧ b.2 = { a.2 with log := b.2.log } ∧ (ExtraLine a.2.log b.2.log ∨ a.1 ≠ .ok true ∧ b.2.log = a.2.log)

/-- No chunk was looked for in vain. -/
def NoneMissing (w : World) : Prop := ∀ id, Event.answer id (some 0) ∉ w.log

/-- The store number `k` was not asked for anything. -/
def NeverAsked (k : Nat) (w : World) : Prop := ∀ id, Event.ask k id ∉ w.log

end Csn.Spec
