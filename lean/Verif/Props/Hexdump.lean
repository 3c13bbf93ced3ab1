import Verif.Spec.Log
/-
C66: the debugging aid `hexdump`.
-/
namespace Csn.Props
open Csn Csn.Spec

theorem hexDigit_char {k : Nat} (h : k < 16) : hexDigit k = (Nat.digitChar k).toNat.toUInt8 :=
  (by decide : ∀ k : Fin 16, hexDigit k.val = (Nat.digitChar k.val).toNat.toUInt8) ⟨k, h⟩

theorem hexDigit_table {k : Nat} (h : k < 16) : hexDigit k = (str "0123456789abcdef").getD k 0 :=
  (by decide : ∀ k : Fin 16, hexDigit k.val = (str "0123456789abcdef").getD k.val 0) ⟨k, h⟩

theorem hexLoop_eq : ∀ (fuel n : Nat) (acc : Bytes) (acc' : List Char), acc = acc'.map (fun c => c.toNat.toUInt8) →
    hexLoop fuel n acc = (Nat.toDigitsCore 16 fuel n acc').map (fun c => c.toNat.toUInt8) := by
  intro fuel
  induction fuel with
  | zero => intro n acc acc' h; simpa [hexLoop, Nat.toDigitsCore] using h
  | succ fuel ih =>
    intro n acc acc' h
    have hd := hexDigit_char (k := n % 16) (Nat.mod_lt _ (by omega))
    simp only [hexLoop, Nat.toDigitsCore]
    by_cases h0 : n / 16 = 0
    · rw [if_pos h0, if_pos h0, List.map_cons, h, hd]
    · rw [if_neg h0, if_neg h0]
      apply ih
      rw [List.map_cons, h, hd]

theorem fmt04x_eq (n : Nat) : fmt04x n = offsetText n := by
  unfold fmt04x offsetText str
  rw [hexLoop_eq (n + 1) n [] [] rfl]
  simp [Nat.toDigits]

theorem byteText_eq (b : UInt8) : str " " ++ hex2 b = byteText b := by
  unfold hex2 byteText
  have h1 : b.toNat / 16 < 16 := by have := b.toNat_lt; omega
  rw [hexDigit_table h1, hexDigit_table (Nat.mod_lt _ (by omega))]
  rfl

theorem asciiText_eq (c : UInt8) : (if c < 0x20 || c > 0x7e then 0x2e else c) = asciiText c := by
  unfold asciiText
  by_cases h1 : c < 0x20
  · rw [if_pos (by simp [h1]), if_neg (by rintro ⟨h, _⟩; simp only [UInt8.lt_iff_toNat_lt, UInt8.le_iff_toNat_le] at *; omega)]
  · by_cases h2 : c > 0x7e
    · rw [if_pos (by simp [h2]), if_neg (by rintro ⟨_, h⟩; simp only [gt_iff_lt, UInt8.lt_iff_toNat_lt, UInt8.le_iff_toNat_le] at *; omega)]
    · rw [if_neg (by simp [h1, h2]), if_pos (by simp only [gt_iff_lt, UInt8.lt_iff_toNat_lt, UInt8.le_iff_toNat_le] at *; omega)]

theorem asciiText_ne (c : UInt8) : asciiText c ≠ 0 := by
  unfold asciiText
  split
  · next h => rintro rfl; exact absurd h.1 (by decide)
  · decide

/-- The array holds the characters of `row` and a NUL behind them. -/
def Holds (buff : List (Option UInt8)) (row : Bytes) : Prop :=
  ∃ r, buff = (row.map (fun c => some (asciiText c))) ++ some 0 :: r ∧ buff.length = 17

theorem printBuff_holds {buff : List (Option UInt8)} {row : Bytes} (h : Holds buff row) : printBuff buff = some (row.map asciiText) := by
  obtain ⟨r, rfl, hl⟩ := h
  clear hl
  induction row with
  | nil => simp [printBuff]
  | cons c row ih =>
    simp only [List.map_cons, List.cons_append, printBuff]
    rw [if_neg (by simpa using asciiText_ne c), ih]
    rfl

/-- Storing a character at the end of the row. -/
theorem set_holds {buff : List (Option UInt8)} {row : Bytes} {c : UInt8} (hl : buff.length = 17)
    (hp : ∃ r, buff = row.map (fun c => some (asciiText c)) ++ r) (hr : row.length < 16) :
    ∃ b1 b2, setBuff buff row.length (asciiText c) = some b1 ∧ setBuff b1 (row.length + 1) 0 = some b2 ∧ Holds b2 (row ++ [c]) := by
  obtain ⟨r, rfl⟩ := hp
  refine ⟨_, _, by unfold setBuff; rw [if_pos (by omega)], by unfold setBuff; rw [if_pos (by simp at hl ⊢; omega)], ?_⟩
  match r, hl with
  | [], hl => simp at hl; omega
  | [_], hl => simp at hl; omega
  | x :: y :: r, hl =>
    refine ⟨r, ?_, by simpa using hl⟩
    simp [List.set_append]

theorem padLoop_blank (m : Nat) : ∀ (k fuel i : Nat), k ≤ fuel → k < 16 → i + k = 16 * m → padLoop fuel i = List.replicate (3 * k) 0x20 := by
  intro k
  induction k with
  | zero =>
    intro fuel i _ _ h
    cases fuel with
    | zero => rfl
    | succ fuel => rw [padLoop, if_neg (by omega)]; rfl
  | succ k ih =>
    intro fuel i hf hk h
    cases fuel with
    | zero => omega
    | succ fuel =>
      rw [padLoop, if_pos (by omega), ih fuel (i + 1) (by omega) (by omega) (by omega), show 3 * (k + 1) = 3 + 3 * k by omega, ← List.replicate_append_replicate]
      rfl

theorem dump_rows : ∀ (rest : Bytes) (q : Nat) (row : Bytes) (buff : List (Option UInt8)), row ≠ [] → row.length ≤ 16 → Holds buff row →
    ∃ out buff' t, dumpLoop rest (16 * q + row.length) buff = some (out, buff') ∧ printBuff buff' = some t ∧
      Dump (16 * q) (row ++ rest) (str "  " ++ offsetText (16 * q) ++ str " " ++ row.flatMap byteText ++ out ++
        padLoop 16 (16 * q + row.length + rest.length) ++ (str "  " ++ t ++ str "\n")) := by
  intro rest
  induction rest with
  | nil =>
    intro q row buff hne hle hh
    refine ⟨[], buff, _, rfl, printBuff_holds hh, ?_⟩
    have hpos : 0 < row.length := List.length_pos_iff.2 hne
    rw [padLoop_blank (q + 1) (16 - row.length) 16 _ (by omega) (by omega) (by simp; omega)]
    have := Dump.last (16 * q) row hne hle
    simpa [rowText] using this
  | cons c rest ih =>
    intro q row buff hne hle hh
    have hpos : 0 < row.length := List.length_pos_iff.2 hne
    obtain ⟨r, hb, hl⟩ := id hh
    by_cases h16 : row.length = 16
    · obtain ⟨b1, b2, e1, e2, hh2⟩ := set_holds (row := []) (c := c) hl ⟨buff, rfl⟩ (by simp)
      obtain ⟨out, buff', t, e3, e4, hd⟩ := ih (q + 1) [c] b2 (by simp) (by simp) hh2
      refine ⟨str "  " ++ row.map asciiText ++ str "\n" ++ (str "  " ++ offsetText (16 * (q + 1)) ++ str " ") ++ (str " " ++ hex2 c) ++ out, buff', t, ?_, e4, ?_⟩
      · have hi : 16 * q + row.length = 16 * (q + 1) := by omega
        have hm : 16 * (q + 1) % 16 = 0 := by omega
        simp only [List.length_nil] at e1 e2
        simp only [List.length_singleton] at e3
        rw [hi, dumpLoop]
        simp only [hm, if_true, printBuff_holds hh, asciiText_eq, e1, fmt04x_eq]
        rw [if_pos (by omega)]
        simp [e2, e3]
      · have := Dump.more (16 * q) row (c :: rest) _ h16 (by simpa [Nat.mul_add] using hd)
        have hlen : 16 * q + row.length + (c :: rest).length = 16 * q + 16 + 1 + rest.length := by simp; omega
        rw [hlen, byteText_eq]
        simpa [rowText, h16, Nat.mul_add] using this
    · obtain ⟨b1, b2, e1, e2, hh2⟩ := set_holds (row := row) (c := c) hl ⟨_, hb⟩ (by omega)
      obtain ⟨out, buff', t, e3, e4, hd⟩ := ih q (row ++ [c]) b2 (by simp) (by simp; omega) hh2
      refine ⟨str " " ++ hex2 c ++ out, buff', t, ?_, e4, ?_⟩
      · have hm : (16 * q + row.length) % 16 = row.length := by omega
        rw [dumpLoop]
        simp only [hm, asciiText_eq, e1]
        rw [if_neg (by omega)]
        simp only [List.length_append, List.length_singleton] at e3
        rw [show 16 * q + row.length + 1 = 16 * q + (row.length + 1) by omega]
        simp [e2, e3]
      · rw [byteText_eq]
        have hlen : 16 * q + (row ++ [c]).length + rest.length = 16 * q + row.length + (c :: rest).length := by simp; omega
        rw [hlen] at hd
        simpa using hd

/-- **C66** (all but empty data): hexdump prints rows of sixteen bytes with offset and characters, without undefined
behaviour, for data of any length but zero. -/
theorem C66_rows_partial (data : Bytes) (hne : data ≠ []) : ∃ o, hexdump data = some o ∧ Dump 0 data o := by
  cases data with
  | nil => exact absurd rfl hne
  | cons c rest =>
    obtain ⟨b1, b2, e1, e2, hh2⟩ := set_holds (buff := List.replicate 17 none) (row := []) (c := c) (by simp) ⟨_, rfl⟩ (by simp)
    obtain ⟨out, buff', t, e3, e4, hd⟩ := dump_rows rest 0 [c] b2 (by simp) (by simp) hh2
    simp only [List.length_nil] at e1 e2
    simp only [List.length_singleton, Nat.mul_zero, Nat.zero_add] at e3 hd
    refine ⟨_, ?_, hd⟩
    unfold hexdump
    rw [dumpLoop]
    simp only [Nat.zero_mod, if_true, asciiText_eq, e1, fmt04x_eq, ne_eq, not_true_eq_false, if_false]
    simp [e2, e3, e4, ← byteText_eq, Nat.add_comm]

/-- **C66 refuted** for empty data: the array is printed although nothing was stored in it. -/
theorem C66_refuted : hexdump [] = none := by decide

/-- A case with two rows. -/
example : hexdump (str "hello world, this\nx") =
    some (str "  0000  68 65 6c 6c 6f 20 77 6f 72 6c 64 2c 20 74 68 69  hello world, thi\n  0010  73 0a 78                                         s.x\n") := by
  decide +kernel

end Csn.Props
