import Verif.Model.Base
import Verif.Spec.Files
/-
What a power cut can leave of a file, in terms of the log of write and flush events.
-/
namespace Csn.Spec
open Csn

/-- The writes to inode `i` in a log: position and data. -/
def writesTo (i : Nat) : List Event → List (Nat × Bytes)
  | [] => []
  | .write j o d :: r => if j = i then (o, d) :: writesTo i r else writesTo i r
  | _ :: r => writesTo i r

/-- Carrying out the writes one after the other turns contents `f` into `g`. -/
def Results : Bytes → List (Nat × Bytes) → Bytes → Prop
  | f, [], g => g = f
  | f, (o, d) :: r, g => ∃ h, Patched f o d h ∧ Results h r g

/-- After a power cut inode `i`, whose contents `f` were on stable storage before the events of `log`, may have contents `g`:
everything up to some flush is there (all flushes, that is: none follows), and any selection of the later writes. -/
def Survives (i : Nat) (f : Bytes) (log : List Event) (g : Bytes) : Prop :=
  ∃ early late kept, log = early ++ late ∧ Event.fsync i ∉ late ∧ (early = [] ∨ early.getLast? = some (Event.fsync i)) ∧
    kept.Sublist (writesTo i late) ∧ Results f (writesTo i early ++ kept) g

end Csn.Spec
