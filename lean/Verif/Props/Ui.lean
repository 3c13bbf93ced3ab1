import Verif.Model.Ui
/-
C55: progress display.  C59: log levels.
-/
namespace Csn.Props
open Csn

/-! ### C55 -/

theorem drawBar_spec (tip : Nat) : ∀ (n : Nat) (bar : Bytes), n ≤ barLen → bar.length = barLen + 1 →
    ∃ bar', drawBar tip n bar = some bar' ∧ bar'.length = barLen + 1 ∧ bar'[barLen]? = some 0 ∧
      (∀ i, i < barLen - n → bar'[i]? = bar[i]?) ∧ (∀ i, barLen - n ≤ i → i < barLen → bar'[i]? = some (if i < tip then 0x3d else 0x20))
  | 0, bar, _, hl => by
    refine ⟨bar.set barLen 0, ?_, by simp [hl], ?_, ?_, ?_⟩
    · unfold drawBar; rw [if_pos (by omega)]
    · rw [List.getElem?_set_self (by omega)]
    · intro i hi
      rw [List.getElem?_set_ne (by omega)]
    · intro i h1 h2; omega
  | n + 1, bar, hn, hl => by
    have hi : barLen - (n + 1) < bar.length := by omega
    obtain ⟨bar', h1, h2, h3, h4, h5⟩ := drawBar_spec tip n (bar.set (barLen - (n + 1)) (if barLen - (n + 1) < tip then 0x3d else 0x20)) (by omega) (by simpa using hl)
    refine ⟨bar', ?_, h2, h3, ?_, ?_⟩
    · unfold drawBar
      simp only
      rw [if_pos hi]
      exact h1
    · intro i hlt
      rw [h4 i (by omega), List.getElem?_set_ne (by omega)]
    · intro i h6 h7
      by_cases e : i = barLen - (n + 1)
      · rw [h4 i (by omega), e, List.getElem?_set_self hi]
      · exact h5 i (by omega) h7

/-- A number in decimal notation, right-aligned in three columns. -/
def threeColumns (n : Nat) : Bytes :=
  let digits := (Nat.toDigits 10 n).map (fun c => UInt8.ofNat c.toNat)
  List.replicate (3 - digits.length) 0x20 ++ digits

theorem fmt3d_columns : ∀ n : Fin 256, fmt3d n.val = threeColumns n.val := by decide +kernel

/-- **C55**, drawing: for every percentage byte and every status, drawing stays inside its arrays, and the line shows the
next of the five characters of the spinner, a bar of 60 columns filled up to the percentage, the number in decimal notation,
and a line break exactly at 100. -/
theorem C55_drawing (percent : UInt8) (status : BitVec 32) :
    showProgress percent status = some (0x1b :: str "[0G[" ++ [(str "-\\|//").getD (status.toNat % 5) 0] ++ str "] |" ++
      List.replicate (min 60 (percent.toNat * 60 / 100)) 0x3d ++
      List.replicate (60 - percent.toNat * 60 / 100) 0x20 ++ str "| " ++ threeColumns percent.toNat ++ str "%" ++
      (if percent = 100 then [0x0a] else []), status + 1) := by
  obtain ⟨bar, h1, h2, h3, _, h5⟩ := drawBar_spec (percent.toNat * barLen / 100) barLen (List.replicate (barLen + 1) 0) (Nat.le_refl _) (by simp)
  have hsl : spinner.length = 5 := by decide
  have hlt : status.toNat % spinner.length < spinner.length := Nat.mod_lt _ (by omega)
  have hb : cstr bar = List.replicate (min 60 (percent.toNat * 60 / 100)) 0x3d ++ List.replicate (60 - percent.toNat * 60 / 100) 0x20 := by
    generalize ht : percent.toNat * barLen / 100 = tip at h5
    have hbl : barLen = 60 := rfl
    rw [hbl] at ht h2 h3 h5
    have e : bar = (List.replicate (min 60 tip) 0x3d ++ List.replicate (60 - tip) 0x20) ++ [0] := by
      apply List.ext_getElem?
      intro i
      by_cases h6 : i < 60
      · rw [h5 i (by omega) h6, List.getElem?_append_left (by simp; omega)]
        by_cases h7 : i < tip
        · rw [if_pos h7, List.getElem?_append_left (by simp; omega), List.getElem?_replicate, if_pos (by omega)]
        · rw [if_neg h7, List.getElem?_append_right (by simp; omega), List.getElem?_replicate, if_pos (by simp; omega)]
      · by_cases h7 : i = 60
        · subst h7
          rw [h3, List.getElem?_append_right (by simp; omega)]
          have : 60 - (List.replicate (min 60 tip) (0x3d : UInt8) ++ List.replicate (60 - tip) 0x20).length = 0 := by simp; omega
          rw [this]; rfl
        · rw [List.getElem?_eq_none (by omega), List.getElem?_eq_none (by simp; omega)]
    rw [e, ht]
    unfold cstr
    rw [List.takeWhile_append_of_pos]
    · simp [List.takeWhile]
    · intro a ha
      rcases List.mem_append.1 ha with ha | ha
      · rw [(List.mem_replicate.1 ha).2]; decide
      · rw [(List.mem_replicate.1 ha).2]; decide
  have hc : spinner[status.toNat % spinner.length]? = some ((str "-\\|//").getD (status.toNat % 5) 0) := by
    rw [List.getElem?_eq_getElem hlt, List.getD_eq_getElem?_getD]
    have : spinner = str "-\\|//" := rfl
    rw [← this, show status.toNat % 5 = status.toNat % spinner.length by rw [hsl], List.getElem?_eq_getElem hlt, Option.getD_some]
  have hf : fmt3d percent.toNat = threeColumns percent.toNat := fmt3d_columns ⟨percent.toNat, UInt8.toNat_lt percent⟩
  unfold showProgress
  simp only [h1, hc, hb, hf, bind, Option.bind, List.append_assoc]

/-- Some of the lines drawn. -/
example : [7, 50, 100].map threeColumns = [str "  7", str " 50", str "100"] := by decide

/-- The value csn displays after handling `h` of `n` entries. -/
theorem percentMain_val (h n : Nat) (hn : 0 < n) (hle : h ≤ n) : (percentMain (BitVec.ofNat 32 h) n).toNat = (100 * h % 2 ^ 32) / n := by
  have hv : (100#32 * BitVec.ofNat 32 h).toNat = 100 * h % 2 ^ 32 := by simp [BitVec.toNat_mul, Nat.mul_mod]
  unfold percentMain
  rw [hv]
  have hb : (100 * h % 2 ^ 32) / n ≤ 100 := by
    by_cases hc : 100 * n < 2 ^ 32
    · rw [Nat.mod_eq_of_lt (by omega)]
      exact Nat.div_le_of_le_mul (by rw [Nat.mul_comm n]; omega)
    · refine Nat.div_le_of_le_mul ?_
      have := Nat.mod_lt (100 * h) (show 0 < 2 ^ 32 by omega)
      rw [Nat.mul_comm n]
      omega
  rw [UInt8.toNat_ofNat']
  exact Nat.mod_eq_of_lt (by omega)

/-- **C55**, range: the percentage csn displays is between 0 and 100, for any number of entries. -/
theorem C55_range (h n : Nat) (hn : 0 < n) (hle : h ≤ n) : (percentMain (BitVec.ofNat 32 h) n).toNat ≤ 100 := by
  rw [percentMain_val h n hn hle]
  by_cases hc : 100 * n < 2 ^ 32
  · rw [Nat.mod_eq_of_lt (by omega)]
    exact Nat.div_le_of_le_mul (by rw [Nat.mul_comm n]; omega)
  · refine Nat.div_le_of_le_mul ?_
    have := Nat.mod_lt (100 * h) (show 0 < 2 ^ 32 by omega)
    rw [Nat.mul_comm n]
    omega

/-- **C55** (partial): for indices of up to 42949672 entries the percentage is the rounded-down proportion, so it never
decreases, and it is 100 exactly after the last entry.  Missing, since false: larger indices (`C55_refuted`). -/
theorem C55_proportion_partial (h n : Nat) (hn : 0 < n) (hle : h ≤ n) (hsmall : n ≤ 42949672) :
    (percentMain (BitVec.ofNat 32 h) n).toNat = 100 * h / n ∧ (percentMain (BitVec.ofNat 32 h) n = 100 ↔ h = n) ∧
    ∀ h', h' ≤ h → percentMain (BitVec.ofNat 32 h') n ≤ percentMain (BitVec.ofNat 32 h) n := by
  have hv : ∀ k, k ≤ n → (percentMain (BitVec.ofNat 32 k) n).toNat = 100 * k / n := by
    intro k hk
    rw [percentMain_val k n hn hk, Nat.mod_eq_of_lt (by omega)]
  refine ⟨hv h hle, ?_, fun h' hh => ?_⟩
  · rw [← UInt8.toNat_inj, hv h hle]
    show 100 * h / n = 100 ↔ _
    constructor
    · intro e
      have := Nat.div_mul_le_self (100 * h) n
      rw [e] at this
      omega
    · rintro rfl
      exact Nat.mul_div_cancel _ hn
  · rw [UInt8.le_iff_toNat_le, hv h' (by omega), hv h hle]
    exact Nat.div_le_div_right (by omega)

/-- A case: 7 entries. -/
example : (List.range 7).map (fun i => (percentMain (BitVec.ofNat 32 (i + 1)) 7).toNat) = [14, 28, 42, 57, 71, 85, 100] := by decide

/-- **C55 refuted in full**: with 42949673 entries the display falls from 99 to 0 at the last one. -/
theorem C55_refuted : ∃ n, 0 < n ∧ (percentMain (BitVec.ofNat 32 (n - 1)) n).toNat = 99 ∧ (percentMain (BitVec.ofNat 32 n) n).toNat = 0 :=
  ⟨42949673, by decide, by decide, by decide⟩

theorem percentPatch_val (o n : Nat) (hn : 0 < n) (hle : o ≤ n) : (percentPatch o n).toNat = (100 * o % 2 ^ 64) / n ∧ (percentPatch o n).toNat ≤ 100 := by
  have hb : (100 * o % 2 ^ 64) / n ≤ 100 := by
    by_cases hc : 100 * n < 2 ^ 64
    · rw [Nat.mod_eq_of_lt (by omega)]
      exact Nat.div_le_of_le_mul (by rw [Nat.mul_comm n]; omega)
    · refine Nat.div_le_of_le_mul ?_
      have := Nat.mod_lt (100 * o) (show 0 < 2 ^ 64 by omega)
      rw [Nat.mul_comm n]
      omega
  have : (percentPatch o n).toNat = (100 * o % 2 ^ 64) / n := by
    unfold percentPatch
    rw [UInt8.toNat_ofNat']
    exact Nat.mod_eq_of_lt (by omega)
  exact ⟨this, by omega⟩

/-- **C55** for patchdd (partial): as for csn; sources from 2^64/100 bytes on (160 PiB) are missing. -/
theorem C55_patchdd_partial (o n : Nat) (hn : 0 < n) (hle : o ≤ n) (hsmall : 100 * n < 2 ^ 64) :
    (percentPatch o n).toNat = 100 * o / n ∧ (percentPatch o n = 100 ↔ o = n) ∧ ∀ o', o' ≤ o → percentPatch o' n ≤ percentPatch o n := by
  have hv : ∀ k, k ≤ n → (percentPatch k n).toNat = 100 * k / n := by
    intro k hk
    rw [(percentPatch_val k n hn hk).1, Nat.mod_eq_of_lt (by omega)]
  refine ⟨hv o hle, ?_, fun h' hh => ?_⟩
  · rw [← UInt8.toNat_inj, hv o hle]
    show 100 * o / n = 100 ↔ _
    constructor
    · intro e
      have := Nat.div_mul_le_self (100 * o) n
      rw [e] at this
      omega
    · rintro rfl
      exact Nat.mul_div_cancel _ hn
  · rw [UInt8.le_iff_toNat_le, hv h' (by omega), hv o hle]
    exact Nat.div_le_div_right (by omega)

example : (percentPatch 1048576 3000000).toNat = 34 ∧ (percentPatch 3000000 3000000).toNat = 100 := by decide

/-! ### C59 -/

/-- How severe messages of a level are, least severe first. -/
def severities : List Level := [.debug, .info, .warn, .err]

/-- `a` is at least as severe as `b`. -/
def AtLeast (a b : Level) : Prop := ∃ x y, severities = x ++ b :: y ∧ a ∈ b :: y

/-- The threshold that a value of LOGLEVEL asks for. -/
inductive Asks : Option Bytes → Level → Prop
  | debug : Asks (some (str "debug")) .debug
  | info : Asks (some (str "info")) .info
  | warn : Asks (some (str "warn")) .warn
  | warning : Asks (some (str "warning")) .warn
  | err : Asks (some (str "err")) .err
  | error : Asks (some (str "error")) .err
  | unset : Asks none .info
  | unknown (s : Bytes) (h : s ∉ ["debug", "info", "warn", "warning", "err", "error"].map str) : Asks (some s) .info

theorem asks_iff {env : Option Bytes} {l : Level} : Asks env l ↔ logInit env = l := by
  constructor
  · intro h
    cases h with
    | unknown s h =>
      simp only [List.map_cons, List.map_nil, List.mem_cons, List.not_mem_nil, or_false, not_or] at h
      obtain ⟨h1, h2, h3, h4, h5, h6⟩ := h
      unfold logInit streq
      simp [h1, h2, h3, h4, h5, h6]
    | _ => decide
  · rintro rfl
    cases env with
    | none => exact .unset
    | some s =>
      unfold logInit streq
      simp only [Bool.or_eq_true, beq_iff_eq]
      by_cases h1 : s = str "debug"
      · rw [if_pos h1, h1]; exact .debug
      · rw [if_neg h1]
        by_cases h2 : s = str "info"
        · rw [if_pos h2, h2]; exact .info
        · rw [if_neg h2]
          by_cases h3 : s = str "warn"
          · rw [if_pos (Or.inl h3), h3]; exact .warn
          · by_cases h4 : s = str "warning"
            · rw [if_pos (Or.inr h4), h4]; exact .warning
            · rw [if_neg (by simp [h3, h4])]
              by_cases h5 : s = str "err"
              · rw [if_pos (Or.inl h5), h5]; exact .err
              · by_cases h6 : s = str "error"
                · rw [if_pos (Or.inr h6), h6]; exact .error
                · rw [if_neg (by simp [h5, h6])]
                  exact .unknown s (by simp [h1, h2, h3, h4, h5, h6])

theorem atLeast_iff {level t : Level} : AtLeast level t ↔ level.val ≤ t.val := by
  constructor
  · rintro ⟨x, y, h1, h2⟩
    have : (x, y) ∈ [([], [.info, .warn, .err]), ([.debug], [.warn, .err]), ([.debug, .info], [.err]), ([.debug, .info, .warn], [])] ∧
        t = [Level.debug, .info, .warn, .err].getD x.length .err := by
      match x, h1 with
      | [], h1 => simp only [severities, List.nil_append, List.cons.injEq] at h1; obtain ⟨rfl, rfl⟩ := h1; simp
      | [_], h1 => simp only [severities, List.cons_append, List.nil_append, List.cons.injEq] at h1; obtain ⟨rfl, rfl, rfl⟩ := h1; simp
      | [_, _], h1 => simp only [severities, List.cons_append, List.nil_append, List.cons.injEq] at h1; obtain ⟨rfl, rfl, rfl, rfl⟩ := h1; simp
      | [_, _, _], h1 => simp only [severities, List.cons_append, List.nil_append, List.cons.injEq] at h1; obtain ⟨rfl, rfl, rfl, rfl, rfl⟩ := h1; simp
      | _ :: _ :: _ :: _ :: _, h1 =>
        have := congrArg List.length h1
        simp [severities] at this
    obtain ⟨h3, h4⟩ := this
    simp only [List.mem_cons, Prod.mk.injEq, List.not_mem_nil, or_false] at h3
    rcases h3 with ⟨rfl, rfl⟩ | ⟨rfl, rfl⟩ | ⟨rfl, rfl⟩ | ⟨rfl, rfl⟩ <;> simp at h4 <;> subst h4 <;> cases level <;> simp_all [Level.val]
  · intro h
    cases t <;> cases level <;> simp [Level.val] at h <;>
      first
      | exact ⟨[], [.info, .warn, .err], rfl, by simp⟩
      | exact ⟨[.debug], [.warn, .err], rfl, by simp⟩
      | exact ⟨[.debug, .info], [.err], rfl, by simp⟩
      | exact ⟨[.debug, .info, .warn], [], rfl, by simp⟩

/-- **C59**: for every value of LOGLEVEL there is exactly one threshold, and exactly the messages at least as severe are
printed. -/
theorem C59_filtering (env : Option Bytes) : ∃ t, Asks env t ∧ (∀ t', Asks env t' → t' = t) ∧ ∀ level, logPrints env level = true ↔ AtLeast level t := by
  refine ⟨logInit env, asks_iff.2 rfl, fun t' h => (asks_iff.1 h).symm, fun level => ?_⟩
  unfold logPrints
  generalize logInit env = t
  rw [atLeast_iff]
  unfold checkLevel
  by_cases h : level.val > t.val
  · rw [if_pos h]; simp; omega
  · rw [if_neg h]; simp; omega

/-- **C55**, when: csn shows progress exactly if it runs on a terminal and debug messages are not printed, which they are
exactly for LOGLEVEL=debug. -/
theorem C55_shown (interactive : Bool) (env : Option Bytes) : progressShown interactive env = true ↔ interactive = true ∧ env ≠ some (str "debug") := by
  have h : checkLevel (logInit env) .debug = true ↔ env = some (str "debug") := by
    constructor
    · intro h
      have ha : Asks env (logInit env) := asks_iff.2 rfl
      generalize logInit env = t at h ha
      cases ha with
      | debug => rfl
      | _ => simp [checkLevel, Level.val] at h
    · rintro rfl; decide
  unfold progressShown
  cases interactive <;> simp [← h]

/-- Cases: an unknown value, and "warning". -/
example : Asks (some (str "verbose")) .info ∧ Asks (some (str "warning")) .warn ∧ logPrints (some (str "warning")) .info = false ∧
    logPrints (some (str "verbose")) .info = true ∧ AtLeast .err .warn ∧ ¬ logPrints (some (str "verbose")) .debug = true :=
  ⟨.unknown _ (by decide), .warning, by decide, by decide, ⟨[.debug, .info], [.err], rfl, by simp⟩, by decide⟩

end Csn.Props
