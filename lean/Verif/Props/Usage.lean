import Verif.Props.Tool
/-
C75: how csn-tool treats command lines it cannot use.
-/
namespace Csn.Props
open Csn Csn.Spec Csn.Proof

/-- What csn-tool's usage texts allow: `crypt keyspec [input [output]]`, where the key specification is not a call for help. -/
def Usable (args : List Bytes) : Prop :=
  ∃ spec files, args = str "crypt" :: spec :: files ∧ files.length ≤ 2 ∧ spec ≠ str "-h" ∧ spec ≠ str "--help"

/-- A request for help, or a command that does not exist. -/
def NoCommand (args : List Bytes) : Prop := ∃ cmd rest, args = cmd :: rest ∧ cmd ≠ str "crypt"

/-- **C75**: nothing is read, written or even looked at when the command line cannot be used, and unless the first word is something else than
a command, the exit status says so.  Missing: words that are not commands (`C75_refuted`). -/
theorem C75_usage_partial (T : Tool) (args : List Bytes) (w : World) (h : ¬ Usable args) :
    (toolMain T args w).2 = w ∧ (¬ NoCommand args → (toolMain T args w).1 = .ok false) := by
  have hst : ∀ a b : Bytes, streq a b = true ↔ a = b := fun a b => by simp [streq]
  cases args with
  | nil => exact ⟨rfl, fun _ => rfl⟩
  | cons cmd rest =>
    by_cases hc : cmd = str "crypt"
    · subst hc
      rw [toolMain_crypt]
      cases rest with
      | nil => exact ⟨rfl, fun _ => rfl⟩
      | cons spec files =>
        have hb : files.length > 2 ∨ streq spec (str "-h") = true ∨ streq spec (str "--help") = true := by
          apply Classical.byContradiction
          intro hn
          refine h ⟨spec, files, rfl, ?_, ?_, ?_⟩
          · exact Nat.le_of_not_lt fun hl => hn (Or.inl hl)
          · exact fun e => hn (Or.inr (Or.inl ((hst _ _).2 e)))
          · exact fun e => hn (Or.inr (Or.inr ((hst _ _).2 e)))
        unfold doCrypt
        simp only [if_pos hb]
        exact ⟨rfl, fun _ => rfl⟩
    · refine ⟨?_, fun hn => absurd ⟨cmd, rest, rfl, hc⟩ hn⟩
      unfold toolMain
      dsimp only
      split
      · rfl
      · have : streq cmd (str "crypt") = false := by
          cases hs : streq cmd (str "crypt") with
          | false => rfl
          | true => exact absurd ((hst _ _).1 hs) hc
        rw [this]
        rfl

/-- Three files. -/
example : ¬ Usable [str "crypt", tSpec, str "a", str "b", str "c"] := by
  rintro ⟨spec, files, h, hl, _⟩
  injection h with _ h
  injection h with _ h
  subst h
  exact absurd hl (by decide)

example (w : World) : toolMain (tTool []) [str "crypt", tSpec, str "a", str "b", str "c"] w = (.ok false, w) := rfl

/-- A command line that can be used and is: this one does have effects (C48). -/
example : Usable [str "crypt", tSpec, str "d/" ++ tName] := ⟨tSpec, [str "d/" ++ tName], rfl, by decide, by decide, by decide⟩

/-- **C75** as claimed is false: a misspelt command is reported as success (csn-tool.c:207). -/
theorem C75_refuted : ∃ (T : Tool) (args : List Bytes), ¬ Usable args ∧ args.head? ≠ some (str "-h") ∧ args.head? ≠ some (str "--help") ∧
    ∀ w, (toolMain T args w).1 = .ok true := by
  refine ⟨tTool [], [str "Crypt", tSpec, str "a"], ?_, by decide, by decide, fun _ => rfl⟩
  rintro ⟨spec, files, h, _⟩
  injection h with h _
  exact absurd h (by decide)

end Csn.Props
