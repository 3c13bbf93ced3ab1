import Verif.Model.Rep
import Verif.Props.Ui
/-
Vocabulary for what the tools report.
-/
namespace Csn.Props
open Csn

/-- The process at its start. -/
def atStart (ans : List Bool) : Rep.PS := ⟨ans, false, [], false⟩

/-- The message is one of those in the source, and `_u_log` prints it with log level `cur`. -/
def ShownAt (cur : Level) (l : Rep.Line) : Prop :=
  ∃ x ∈ logSites, l = .note x.file x.first ∧ AtLeast x.level cur

/-- Some message is printed with log level `cur`. -/
def ToldAt (cur : Level) (out : List Rep.Line) : Prop := ∃ l ∈ out, ShownAt cur l

end Csn.Props
