import Verif.Spec.Tool
import Verif.Spec.Text
/-
Which files a run of csn-tool is about (C94).
-/
namespace Csn.Spec
open Csn

/-- `input` names a chunk (or has the odd kind of name that is also accepted), and `out` is the name for its other form. -/
def MadeFrom (input out : Bytes) : Prop :=
  (∃ name id, LastPart input name ∧ (ChunkName name id ∨ OddName name id)) ∧ (Twins input out ∨ Twins out input)

/-- `out` is the name of an output of csn-tool with these arguments and this standard input: the third argument after "crypt" if there is
one, otherwise the other form of the second one, otherwise the other form of a chunk named in a line. -/
inductive OutputOf (stdin : Bytes) : List Bytes → Bytes → Prop where
  | given (spec input out name id) : LastPart input name → (ChunkName name id ∨ OddName name id) → OutputOf stdin [str "crypt", spec, input, out] out
  | derived (spec input out) : MadeFrom input out → OutputOf stdin [str "crypt", spec, input] out
  | line (spec ls l t p out) : InputLines stdin ls → l ∈ ls → CText l t → CutAtBreak t p → MadeFrom p out → OutputOf stdin [str "crypt", spec] out

end Csn.Spec
