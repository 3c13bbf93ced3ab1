import Verif.Spec.Chunking
/-
Two versions of a file (C91).
-/
namespace Csn.Spec

/-- One of the pieces ends at position `b`, or the first one starts there. -/
def EdgeAt (cs : List (List UInt8)) (b : Nat) : Prop := ∃ k, (cs.take k).flatten.length = b

end Csn.Spec
