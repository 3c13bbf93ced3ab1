import Verif.Model.Base
/-
Command lines of the casync front end.
-/
namespace Csn.Spec
open Csn

/-- The options `ws` name the stores `ss`, in this order; --seed-output names none. -/
inductive Options : List Bytes → List Bytes → Prop where
  | nil : Options [] []
  | store (s : Bytes) {ws ss : List Bytes} : Options ws ss → Options (str "--store" :: s :: ws) (s :: ss)
  | seed (s : Bytes) {ws ss : List Bytes} : Options ws ss → Options (str "--seed" :: s :: ws) (s :: ss)
  | output (s : Bytes) {ws ss : List Bytes} : Options ws ss → Options (str "--seed-output" :: s :: ws) ss
  | storeEq (s : Bytes) {ws ss : List Bytes} : Options ws ss → Options ((str "--store=" ++ s) :: ws) (s :: ss)
  | seedEq (s : Bytes) {ws ss : List Bytes} : Options ws ss → Options ((str "--seed=" ++ s) :: ws) (s :: ss)
  | outputEq (s : Bytes) {ws ss : List Bytes} : Options ws ss → Options ((str "--seed-output=" ++ s) :: ws) ss

/-- `a` is not taken for an option. -/
def Plain (a : Bytes) : Prop := a = str "-" ∨ ¬ str "-" <+: a

/-- `args` asks casync to make `tpath` what `ipath` describes, from `stores`.  Options may follow the word "extract" only if
the environment does not ask for POSIX behaviour, in which case everything behind that word is taken as it is. -/
def CommandLine (posix : Bool) (args : List Bytes) (ipath tpath : Bytes) (stores : List Bytes) : Prop :=
  ∃ pre post s1 s2, args = pre ++ str "extract" :: (post ++ [ipath, tpath]) ∧ Options pre s1 ∧ Options post s2 ∧ stores = s1 ++ s2 ∧
    (posix = true → post = []) ∧ (posix = false → Plain ipath ∧ Plain tpath)

end Csn.Spec
