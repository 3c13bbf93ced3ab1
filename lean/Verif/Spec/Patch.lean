import Verif.Model.Base
import Verif.Spec.Files
/-
Vocabulary about copying one file over the start of another.
-/
namespace Csn.Spec
open Csn

/-- The first `p` bytes of `s`, followed by what `d` has behind its first `p` bytes. -/
def mix (s d : Bytes) (p : Nat) : Bytes := s.take p ++ d.drop p

/-- Position `pos` lies at or behind a difference between `s` and `d` within its block of `t` bytes. -/
def Differs (t : Nat) (s d : Bytes) (pos : Nat) : Prop := ∃ q, t * (pos / t) ≤ q ∧ q ≤ pos ∧ s[q]? ≠ d[q]?

/-- One of the writes covers position `pos`. -/
def Covered (ws : List (Nat × Bytes)) (pos : Nat) : Prop := ∃ e ∈ ws, e.1 ≤ pos ∧ pos < e.1 + e.2.length

/-- The writes go upwards without overlapping. -/
def Upwards (ws : List (Nat × Bytes)) : Prop := ws.Pairwise (fun a b => a.1 + a.2.length ≤ b.1)

end Csn.Spec
