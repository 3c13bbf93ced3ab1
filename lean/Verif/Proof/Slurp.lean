import Verif.Model.Encrypt
/-
slurp_file stays in its buffer: equations for slurp_file and encrypt_parse_keyspec without the undefined cases.
-/
namespace Csn.Proof
open Csn

/-- `slurpFile` without looking at the buffer. -/
def slurpPlain (path : Bytes) (text : Bool) : M (Option Bytes) := do
  match ← openPath path with
  | none => return none
  | some ino =>
    match ← fdSize ino with
    | none => return none
    | some size =>
      if !(← M.alloc (if text then size + 1 else size)) then return none
      match ← readall ino 0 size with
      | (true, d) => return some (if text then d ++ [0] else d)
      | (false, _) => return none

theorem bind_congr {α β : Type} (m : M α) {f g : α → M β} (h : ∀ a, f a = g a) : m >>= f = m >>= g := by
  rw [show f = g from funext h]

theorem slurpFile_eq (path : Bytes) (text : Bool) : slurpFile path text = slurpPlain path text := by
  unfold slurpFile slurpPlain
  refine bind_congr _ (fun a => ?_)
  cases a with
  | none => rfl
  | some ino =>
    refine bind_congr _ (fun a => ?_)
    cases a with
    | none => rfl
    | some size =>
      refine bind_congr _ (fun a => ?_)
      cases a with
      | false => rfl
      | true =>
        have h1 : ¬ (if text then size + 1 else size) < size := by split <;> omega
        simp only [Bool.not_true, Bool.false_eq_true, if_false, if_neg h1]
        refine bind_congr _ (fun a => ?_)
        obtain ⟨b, d⟩ := a
        cases b with
        | false => rfl
        | true => cases text <;> simp

theorem bind_done {α β : Type} {m : M α} {f : α → M β} {w w' : World} {b : β} (h : (m >>= f) w = (.ok b, w')) :
    ∃ a w1, m w = (.ok a, w1) ∧ f a w1 = (.ok b, w') := by
  change M.bind m f w = _ at h
  unfold M.bind at h
  split at h
  · exact ⟨_, _, by assumption, h⟩
  · cases h

/-- What `slurp_file` returns for a text has a NUL. -/
theorem slurpFile_text {path : Bytes} {w w' : World} {d : Bytes} (h : slurpFile path true w = (.ok (some d), w')) : d.contains 0 = true := by
  rw [slurpFile_eq] at h
  unfold slurpPlain at h
  obtain ⟨a, w1, -, h⟩ := bind_done h
  cases a with
  | none => cases h
  | some ino =>
    obtain ⟨a, w1, -, h⟩ := bind_done h
    cases a with
    | none => cases h
    | some size =>
      obtain ⟨a, w1, -, h⟩ := bind_done h
      cases a with
      | false => cases h
      | true =>
        simp only [Bool.not_true, Bool.false_eq_true, if_false] at h
        obtain ⟨⟨b, x⟩, w1, -, h⟩ := bind_done h
        cases b with
        | false => cases h
        | true =>
          cases h
          simp

theorem parseKeyspec_eq (getenv : Bytes → Option Bytes) (spec : Bytes) : parseKeyspec getenv spec = (do
  let check (s : Bytes) : Option Bytes :=
    if s.length ≠ 64 then none
    else match parseHex s with
      | (true, k) => some k
      | (false, _) => none
  if startswith spec (str "key:") then return check (spec.drop 4)
  else if startswith spec (str "env:") then
    match getenv (spec.drop 4) with
    | none => return none
    | some s => return check s
  else if startswith spec (str "file:") then
    match ← slurpFile (spec.drop 5) true with
    | none => return none
    | some d => return check (chomp (cstr d))
  else return none) := by
  unfold parseKeyspec
  dsimp only
  split
  · rfl
  split
  · rfl
  split
  case isFalse => rfl
  funext w
  show M.bind _ _ w = M.bind _ _ w
  unfold M.bind
  cases h : slurpFile (spec.drop 5) true w with
  | mk o w1 =>
    cases o with
    | stop _ => rfl
    | ok a =>
      cases a with
      | none => rfl
      | some d => simp only [if_pos (slurpFile_text h)]; rfl

end Csn.Proof
