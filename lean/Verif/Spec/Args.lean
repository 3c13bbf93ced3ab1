import Verif.Model.Base
/-
What a store argument of csn denotes.
-/
namespace Csn.Spec
open Csn

/-- `arg` names a file `path` to be used as a local store, `index` being the index file to side-load. -/
def LocalArg (tpath arg path : Bytes) (index : Option Bytes) : Prop :=
  arg ≠ tpath ∧ ¬ str "http" <+: arg ∧ 0x3a ∉ path ∧
    match index with
    | none => arg = path
    | some i => arg = path ++ 0x3a :: i

/-- `arg` is the URL of an HTTP store. -/
def HttpArg (tpath arg : Bytes) : Prop := arg ≠ tpath ∧ str "http" <+: arg

end Csn.Spec
