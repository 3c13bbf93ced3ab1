import Verif.Proof.HttpNew
import Verif.Spec.Text
/-
parse_hex, chomp and key specifications against their specifications.
-/
namespace Csn.Proof
open Csn Spec

theorem nibble_eq (c : UInt8) : nibble c = hexVal c := by
  have : ∀ n, n < 256 → nibble (UInt8.ofNat n) = hexVal (UInt8.ofNat n) := by decide +kernel
  have h := this c.toNat c.toNat_lt
  simpa using h

theorem nibble_lt {c : UInt8} {n : Nat} (h : nibble c = some n) : n < 16 := by
  have : ∀ k, k < 256 → ∀ n, nibble (UInt8.ofNat k) = some n → n < 16 := by
    intro k hk
    have : ∀ k, k < 256 → (nibble (UInt8.ofNat k)).all (· < 16) = true := by decide +kernel
    intro n hn
    have h2 := this k hk
    rw [hn] at h2
    simpa using h2
  exact this c.toNat c.toNat_lt n (by simpa using h)

theorem hex_byte {hi lo : Nat} (h1 : hi < 16) (h2 : lo < 16) : (UInt8.ofNat ((hi <<< 4) ||| lo)).toNat = 16 * hi + lo := by
  have : ∀ hi, hi < 16 → ∀ lo, lo < 16 → (UInt8.ofNat ((hi <<< 4) ||| lo)).toNat = 16 * hi + lo := by decide
  exact this hi h1 lo h2

theorem parseHexGo_even (s : Bytes) : ∀ n, s.length = 2 * n → ∀ acc k, parseHexGo acc none s = (true, acc ++ k) ↔ HexOf s k := by
  intro n
  induction n generalizing s with
  | zero =>
    intro h acc k
    have : s = [] := List.length_eq_zero_iff.mp h
    subst this
    simp only [parseHexGo, Prod.mk.injEq, true_and]
    constructor
    · intro h
      have := List.self_eq_append_right.mp h
      subst this; exact .nil
    · intro h; cases h; simp
  | succ n ih =>
    intro h acc k
    match s, h with
    | c :: d :: s, h =>
      have hl : s.length = 2 * n := by simp at h; omega
      simp only [parseHexGo]
      cases hc : nibble c with
      | none =>
        simp only
        constructor
        · intro h; cases h
        · intro h
          cases h with
          | cons _ _ hi lo _ b k h1 h2 h3 h4 => rw [← nibble_eq, hc] at h1; cases h1
      | some hi =>
        simp only
        cases hd : nibble d with
        | none =>
          simp only
          constructor
          · intro h; cases h
          · intro h
            cases h with
            | cons _ _ hi lo _ b k h1 h2 h3 h4 => rw [← nibble_eq, hd] at h2; cases h2
        | some lo =>
          simp only
          have hb := hex_byte (nibble_lt hc) (nibble_lt hd)
          cases k with
          | nil =>
            constructor
            · intro h
              exfalso
              have hlen : ∀ (s : Bytes) (acc : Bytes) o, acc.length ≤ (parseHexGo acc o s).2.length := by
                intro s
                induction s with
                | nil => intro acc o; cases o <;> simp [parseHexGo]
                | cons x s ih2 =>
                  intro acc o
                  cases o with
                  | none =>
                    simp only [parseHexGo]
                    cases nibble x with
                    | none => simp
                    | some n => exact ih2 acc _
                  | some hi =>
                    simp only [parseHexGo]
                    cases nibble x with
                    | none => simp
                    | some n =>
                      refine Nat.le_trans ?_ (ih2 _ none)
                      simp
              have := hlen s (acc ++ [UInt8.ofNat ((hi <<< 4) ||| lo)]) none
              rw [h] at this
              simp at this
              omega
            · intro h; cases h
          | cons b k =>
            by_cases hbe : b = UInt8.ofNat ((hi <<< 4) ||| lo)
            · have := ih s hl (acc ++ [b]) k
              rw [List.append_assoc] at this
              simp only [List.singleton_append] at this
              rw [← hbe, this]
              constructor
              · intro h
                exact .cons c d hi lo s b k (by rw [← nibble_eq]; exact hc) (by rw [← nibble_eq]; exact hd) (by rw [hbe]; exact hb) h
              · intro h
                cases h with
                | cons _ _ _ _ _ _ _ _ _ _ h4 => exact h4
            · constructor
              · intro h
                exfalso
                have hpre : ∀ (s : Bytes) (acc : Bytes) o, acc <+: (parseHexGo acc o s).2 := by
                  intro s
                  induction s with
                  | nil => intro acc o; cases o <;> simp [parseHexGo]
                  | cons x s ih2 =>
                    intro acc o
                    cases o with
                    | none =>
                      simp only [parseHexGo]
                      cases nibble x with
                      | none => simp
                      | some n => exact ih2 acc _
                    | some hi =>
                      simp only [parseHexGo]
                      cases nibble x with
                      | none => simp
                      | some n => exact (List.prefix_append _ _).trans (ih2 _ none)
                have := hpre s (acc ++ [UInt8.ofNat ((hi <<< 4) ||| lo)]) none
                rw [h] at this
                simp only [List.prefix_append_right_inj] at this
                have := List.cons_prefix_cons.mp this
                exact hbe this.1.symm
              · intro h
                cases h with
                | cons _ _ hi' lo' _ _ _ h1 h2 h3 h4 =>
                  rw [← nibble_eq, hc] at h1
                  rw [← nibble_eq, hd] at h2
                  cases h1; cases h2
                  exfalso
                  apply hbe
                  apply UInt8.toNat_inj.mp
                  rw [h3, hb]

theorem parseHex_iff {s : Bytes} {n : Nat} (h : s.length = 2 * n) (k : Bytes) : parseHex s = (true, k) ↔ HexOf s k := by
  have := parseHexGo_even s n h [] k
  simpa [parseHex] using this

theorem isNl_iff (c : UInt8) : isNl c = true ↔ LineBreak c := by
  unfold isNl LineBreak
  simp

/-- What the scan of `chomp` finds in the rest `s` of the string. -/
theorem chompLoop_spec (s : Bytes) : ∀ pos q inRun,
    ((∀ c ∈ s, ¬ LineBreak c) ∧ chompLoop pos q inRun s = q) ∨
    (inRun = true ∧ ∃ u v, s = u ++ v ∧ (∀ c ∈ u, LineBreak c) ∧ (∀ c ∈ v, ¬ LineBreak c) ∧ chompLoop pos q inRun s = q) ∨
    (∃ a u v, s = a ++ u ++ v ∧ u ≠ [] ∧ (∀ c ∈ u, LineBreak c) ∧ (∀ c ∈ v, ¬ LineBreak c) ∧
      (∀ c, a.getLast? = some c → ¬ LineBreak c) ∧ (a = [] → inRun = false) ∧ chompLoop pos q inRun s = some (pos + a.length)) := by
  induction s with
  | nil => intro pos q inRun; exact Or.inl ⟨by simp, rfl⟩
  | cons x s ih =>
    intro pos q inRun
    simp only [chompLoop]
    cases hx : isNl x with
    | false =>
      have hnx : ¬ LineBreak x := by rw [← isNl_iff, hx]; simp
      simp only [Bool.false_eq_true, if_false]
      rcases ih (pos + 1) q false with ⟨h1, h2⟩ | ⟨h1, _⟩ | ⟨a, u, v, h1, h2, h3, h4, h5, h6, h7⟩
      · refine Or.inl ⟨?_, h2⟩
        intro c hc
        rcases List.mem_cons.mp hc with hc | hc
        · rw [hc]; exact hnx
        · exact h1 c hc
      · cases h1
      · refine Or.inr (Or.inr ⟨x :: a, u, v, by rw [h1]; simp, h2, h3, h4, ?_, by simp, ?_⟩)
        · intro c hc
          cases a with
          | nil => simp at hc; rw [← hc]; exact hnx
          | cons y a => exact h5 c (by rw [← hc]; simp [List.getLast?_cons])
        · rw [h7]; simp; omega
    | true =>
      have hxx : LineBreak x := (isNl_iff x).mp hx
      simp only [if_true]
      rcases ih (pos + 1) (if inRun = true then q else some pos) true with ⟨h1, h2⟩ | ⟨_, u, v, h1, h2, h3, h4⟩ | ⟨a, u, v, h1, h2, h3, h4, h5, h6, h7⟩
      · cases inRun with
        | true =>
          exact Or.inr (Or.inl ⟨rfl, [x], s, rfl, by simpa using hxx, h1, h2⟩)
        | false =>
          exact Or.inr (Or.inr ⟨[], [x], s, rfl, by simp, by simpa using hxx, h1, by simp, fun _ => rfl, h2⟩)
      · have hu : ∀ c ∈ x :: u, LineBreak c := by
          intro c hc
          rcases List.mem_cons.mp hc with hc | hc
          · rw [hc]; exact hxx
          · exact h2 c hc
        cases inRun with
        | true => exact Or.inr (Or.inl ⟨rfl, x :: u, v, by rw [h1]; rfl, hu, h3, h4⟩)
        | false => exact Or.inr (Or.inr ⟨[], x :: u, v, by rw [h1]; rfl, by simp, hu, h3, by simp, fun _ => rfl, h4⟩)
      · have hane : a ≠ [] := fun h => by have := h6 h; cases this
        refine Or.inr (Or.inr ⟨x :: a, u, v, by rw [h1]; simp, h2, h3, h4, ?_, by simp, ?_⟩)
        · intro c hc
          apply h5
          rw [← hc, List.getLast?_cons]
          cases hl : a.getLast? with
          | none => exact absurd (List.getLast?_eq_none_iff.mp hl) hane
          | some y => rfl
        · rw [h7]; simp; omega

theorem chomp_cut (t : Bytes) : CutAtBreak t (chomp t) := by
  unfold chomp
  rcases chompLoop_spec t 0 none false with ⟨h1, h2⟩ | ⟨h1, _⟩ | ⟨a, u, v, h1, h2, h3, h4, h5, h6, h7⟩
  · rw [h2]; exact Or.inl ⟨rfl, h1⟩
  · cases h1
  · rw [h7]
    have : t.take (0 + a.length) = a := by rw [h1]; simp
    simp only
    rw [this]
    exact Or.inr ⟨u, v, h1, h2, h3, h4, h5⟩

/-- The cut is unique. -/
theorem cut_unique {t s s' : Bytes} (h : CutAtBreak t s) (h' : CutAtBreak t s') : s = s' := by
  have key : ∀ (s u v s' u' v' : Bytes), s ++ u ++ v = s' ++ u' ++ v' → u ≠ [] → u' ≠ [] → (∀ c ∈ u, LineBreak c) → (∀ c ∈ v, ¬ LineBreak c) →
      (∀ c ∈ u', LineBreak c) → (∀ c ∈ v', ¬ LineBreak c) → (∀ c, s.getLast? = some c → ¬ LineBreak c) →
      (∀ c, s'.getLast? = some c → ¬ LineBreak c) → s.length ≤ s'.length → s = s' := by
    intro s u v s' u' v' e hu hu' a1 a2 b1 b2 c1 c2 hle
    rw [List.append_assoc, List.append_assoc] at e
    have hm : ∃ m, s' = s ++ m ∧ u ++ v = m ++ (u' ++ v') := by
      rcases List.append_eq_append_iff.mp e with ⟨m, h1, h2⟩ | ⟨m, h1, h2⟩
      · exact ⟨m, h1, h2⟩
      · have : m = [] := by
          have := congrArg List.length h1
          simp at this
          exact List.length_eq_zero_iff.mp (by omega)
        subst this
        exact ⟨[], by simpa using h1.symm, by simpa using h2.symm⟩
    obtain ⟨m, hm⟩ := hm
    obtain ⟨h1, h2⟩ := hm
    -- s' = s ++ m, u ++ v = m ++ (u' ++ v')
    by_cases hmn : m = []
    · rw [h1, hmn, List.append_nil]
    · exfalso
      -- the last character of m is no line break; all of u are; so u is shorter than m
      have hlast : ∃ c, s'.getLast? = some c ∧ m.getLast? = some c := by
        rw [h1, List.getLast?_append]
        cases hl : m.getLast? with
        | none => exact absurd (List.getLast?_eq_none_iff.mp hl) hmn
        | some c => exact ⟨c, rfl, rfl⟩
      obtain ⟨c, l1, l2⟩ := hlast
      have hnc := c2 c l1
      obtain ⟨x, hx⟩ := List.exists_cons_of_ne_nil hu'
      obtain ⟨u'', hx⟩ := hx
      have hxb : LineBreak x := b1 x (by rw [hx]; simp)
      rcases List.append_eq_append_iff.mp h2 with ⟨z, z1, z2⟩ | ⟨z, z1, z2⟩
      · -- m = u ++ z, v = z ++ u' ++ v'
        exact a2 x (by rw [z2, hx]; simp) hxb
      · -- u = m ++ z
        apply hnc
        apply a1
        rw [z1]
        exact List.mem_append_left _ (List.mem_of_getLast? l2)
  rcases h with ⟨h1, h2⟩ | ⟨u, v, h1, h2, h3, h4, h5⟩
  · rcases h' with ⟨g1, g2⟩ | ⟨u', v', g1, g2, g3, g4, g5⟩
    · rw [h1, g1]
    · exfalso
      obtain ⟨x, u'', hx⟩ := List.exists_cons_of_ne_nil g2
      exact h2 x (by rw [g1, hx]; simp) (g3 x (by rw [hx]; simp))
  · rcases h' with ⟨g1, g2⟩ | ⟨u', v', g1, g2, g3, g4, g5⟩
    · exfalso
      obtain ⟨x, u'', hx⟩ := List.exists_cons_of_ne_nil h2
      exact g2 x (by rw [h1, hx]; simp) (h3 x (by rw [hx]; simp))
    · rcases Nat.le_total s.length s'.length with hle | hle
      · exact key s u v s' u' v' (by rw [← h1, ← g1]) h2 g2 h3 h4 g3 g4 h5 g5 hle
      · exact (key s' u' v' s u v (by rw [← h1, ← g1]) g2 h2 g3 g4 h3 h4 g5 h5 hle).symm

theorem cstr_text (d : Bytes) : CText d (cstr d) := by
  unfold cstr
  induction d with
  | nil => exact ⟨by simp, Or.inl rfl⟩
  | cons x d ih =>
    by_cases hx : x = 0
    · subst hx
      refine ⟨by simp, Or.inr ⟨d, by simp⟩⟩
    · have : (x != 0) = true := by simp [hx]
      rw [List.takeWhile_cons, if_pos this]
      refine ⟨?_, ?_⟩
      · simp only [List.mem_cons, not_or]; exact ⟨fun h => hx h.symm, ih.1⟩
      · rcases ih.2 with h | ⟨r, h⟩
        · left; rw [← h]
        · right; exact ⟨r, by rw [List.cons_append, ← h]⟩

theorem ctext_unique {d t t' : Bytes} (h : CText d t) (h' : CText d t') : t = t' := by
  have key : ∀ (t t' d d' : Bytes), 0 ∉ t → 0 ∉ t' → t ++ 0 :: d = t' ++ 0 :: d' → t = t' := by
    intro t
    induction t with
    | nil =>
      intro t' d d' _ h' e
      cases t' with
      | nil => rfl
      | cons x t' => simp at e; exact absurd (by rw [e.1]; simp) h'
    | cons x t ih =>
      intro t' d d' h h' e
      cases t' with
      | nil => simp at e; exact absurd (by rw [e.1]; simp) h
      | cons y t' =>
        simp only [List.cons_append, List.cons.injEq] at e
        rw [e.1, ih t' d d' (fun hh => h (by simp [hh])) (fun hh => h' (by simp [hh])) e.2]
  obtain ⟨h1, h2⟩ := h
  obtain ⟨g1, g2⟩ := h'
  rcases h2 with h2 | ⟨r, h2⟩ <;> rcases g2 with g2 | ⟨r', g2⟩
  · rw [← h2, ← g2]
  · rw [← h2, g2] at h1; simp at h1
  · rw [← g2, h2] at g1; simp at g1
  · exact key t t' r r' h1 g1 (by rw [← h2, ← g2])

theorem keyText_iff (getenv : Bytes → Option Bytes) (w : World) (spec s : Bytes) :
    KeyText getenv w spec s ↔ KeySource getenv w spec s := by
  constructor
  · intro h
    cases h with
    | key => exact .key _
    | env v _ hv => exact .env v _ hv
    | file p ino hp hk => exact .file p ino _ _ hp hk (cstr_text _) (chomp_cut _)
  · intro h
    cases h with
    | key => exact .key _
    | env v _ hv => exact .env v _ hv
    | file p ino t _ hp hk ht hc =>
      have e1 := ctext_unique ht (cstr_text _)
      subst e1
      have e2 := cut_unique hc (chomp_cut _)
      subst e2
      exact .file p ino hp hk

theorem specKey_iff (getenv : Bytes → Option Bytes) (w : World) (spec k : Bytes) :
    SpecKey getenv w spec k ↔ KeyOf getenv w spec k := by
  constructor
  · rintro ⟨s, h1, h2, h3⟩
    exact ⟨s, (keyText_iff _ _ _ _).mp h1, h2, (parseHex_iff (n := 32) h2 k).mp h3⟩
  · rintro ⟨s, h1, h2, h3⟩
    exact ⟨s, (keyText_iff _ _ _ _).mpr h1, h2, (parseHex_iff (n := 32) h2 k).mpr h3⟩

end Csn.Proof
