import Verif.Model.Base
/-
Specification of a chunk index as a multimap, in terms of a history of operations and answers.
-/
namespace Csn.Spec
open Csn

/-- Operations on a chunk index. -/
inductive IndexOp where
  | insert (off len : Nat) (id : Id)
  | lookup (id : Id)
  deriving DecidableEq, Repr

/-- Answers: an insertion succeeds or not, a lookup finds (offset, length) or nothing. -/
inductive IndexAns where
  | inserted (ok : Bool)
  | found (r : Option (Nat × Nat))
  deriving DecidableEq, Repr

/-- Step `j` of the history inserted this successfully. -/
def InsertedAt (ops : List IndexOp) (as : List IndexAns) (j off len : Nat) (id : Id) : Prop :=
  ops[j]? = some (.insert off len id) ∧ as[j]? = some (.inserted true)

/-- The answers of a history are those of a multimap: every lookup returns what an earlier
successful insertion put there for exactly this ID, or nothing if there was none. -/
def MultimapHistory (ops : List IndexOp) (as : List IndexAns) : Prop :=
  as.length = ops.length ∧
  ∀ i id, ops[i]? = some (.lookup id) →
    (∃ off len j, as[i]? = some (.found (some (off, len))) ∧ j < i ∧ InsertedAt ops as j off len id) ∨
    (as[i]? = some (.found none) ∧ ∀ j, j < i → ∀ off len, ¬ InsertedAt ops as j off len id)

end Csn.Spec
