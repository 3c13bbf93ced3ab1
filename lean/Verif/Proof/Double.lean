import Verif.Model.Double
import Verif.Spec.Double
/-
Rounding (C95).
-/
namespace Csn.Proof
open Csn Spec Double

theorem rne_best {n D : Nat} (hD : 0 < D) (j : Nat) :
    gap n (rne n D * D) ≤ gap n (j * D) ∧ (gap n (rne n D * D) = gap n (j * D) → j ≠ rne n D → rne n D % 2 = 0 ∧ j % 2 = 1) := by
  have hn : n = n / D * D + n % D := by rw [Nat.mul_comm]; exact (Nat.div_add_mod n D).symm
  have hr : n % D < D := Nat.mod_lt n hD
  unfold rne gap
  simp only
  generalize n / D = q at hn ⊢
  generalize n % D = r at hn hr ⊢
  have hj : (∃ t, j + t + 1 = q) ∨ j = q ∨ j = q + 1 ∨ ∃ t, j = q + 2 + t := by
    rcases Nat.lt_trichotomy j q with h | h | h
    · exact Or.inl ⟨q - j - 1, by omega⟩
    · exact Or.inr (Or.inl h)
    · by_cases h1 : j = q + 1
      · exact Or.inr (Or.inr (Or.inl h1))
      · exact Or.inr (Or.inr (Or.inr ⟨j - q - 2, by omega⟩))
  have hq1 : (q + 1) * D = q * D + D := Nat.succ_mul q D
  rcases hj with ⟨t, ht⟩ | rfl | rfl | ⟨t, rfl⟩
  · have hp : q * D = j * D + t * D + D := by rw [← ht]; simp only [Nat.add_mul, Nat.one_mul]
    split
    · constructor
      · omega
      · intro h; omega
    · rw [hq1]
      constructor
      · omega
      · intro h; omega
  · split
    · constructor
      · omega
      · intro h; omega
    · rename_i hc
      rw [hq1]
      constructor
      · omega
      · intro h _
        omega
  · rw [hq1]
    split
    · constructor
      · omega
      · intro h _
        omega
    · rename_i hc
      constructor
      · rw [hq1]; omega
      · intro h h'; omega
  · have hp : (q + 2 + t) * D = q * D + 2 * D + t * D := by simp only [Nat.add_mul]
    rw [hp]
    split
    · constructor
      · omega
      · intro h; omega
    · rw [hq1]
      constructor
      · omega
      · intro h; omega

theorem grid_pos (x : Nat) : 0 < grid x := Nat.pow_pos (by decide)

/-- `roundD` is rounding to the nearest double, ties to even. -/
theorem roundD_nearest {n d : Nat} (hd : 0 < d) : NearestEven n d (roundD n d) := by
  unfold roundD grid
  generalize hl : Nat.log2 (n / d) - 52 = l
  have hD : 0 < d * 2 ^ l := Nat.mul_pos hd (Nat.pow_pos (by decide))
  have hxlt : n / d < 2 ^ (l + 53) := by
    have : n / d < 2 ^ (Nat.log2 (n / d) + 1) := Nat.lt_log2_self
    exact Nat.lt_of_lt_of_le this (Nat.pow_le_pow_right (by decide) (by omega))
  have hxge : 0 < l → 2 ^ (l + 52) ≤ n / d := by
    intro h0
    have hne : n / d ≠ 0 := by
      intro h; rw [h] at hl; simp at hl; omega
    have : 2 ^ (Nat.log2 (n / d)) ≤ n / d := Nat.log2_self_le hne
    exact Nat.le_trans (Nat.pow_le_pow_right (by decide) (by omega)) this
  have hqlt : n / (d * 2 ^ l) < 2 ^ 53 := by
    rw [← Nat.div_div_eq_div_mul]
    refine Nat.div_lt_of_lt_mul ?_
    rw [← Nat.pow_add]
    exact hxlt
  have hm : rne n (d * 2 ^ l) ≤ 2 ^ 53 := by
    unfold rne
    simp only
    split <;> omega
  have hb := @rne_best n (d * 2 ^ l) hD
  generalize rne n (d * 2 ^ l) = m at hm hb
  have hmul : ∀ j, j * 2 ^ l * d = j * (d * 2 ^ l) := by
    intro j; rw [Nat.mul_assoc, Nat.mul_comm (2 ^ l)]
  refine ⟨?_, ?_⟩
  · by_cases he : m = 2 ^ 53
    · exact ⟨2 ^ 52, l + 1, by decide, by rw [he, Nat.pow_succ 2 l]; omega⟩
    · exact ⟨m, l, by omega, rfl⟩
  · rintro v ⟨k, e, hk, rfl⟩
    rw [hmul]
    by_cases hel : l ≤ e
    · have hv : k * 2 ^ e = (k * 2 ^ (e - l)) * 2 ^ l := by
        rw [Nat.mul_assoc, ← Nat.pow_add]; congr 2; omega
      rw [hv, hmul]
      obtain ⟨h1, h2⟩ := hb (k * 2 ^ (e - l))
      refine ⟨h1, fun ht hne => ?_⟩
      obtain ⟨h3, h4⟩ := h2 ht (fun h => hne (by rw [h]))
      refine ⟨l, ?_, ?_⟩
      · rw [Nat.pow_succ, Nat.mul_comm (2 ^ l)]
        exact Nat.mul_dvd_mul (Nat.dvd_of_mod_eq_zero h3) (Nat.dvd_refl _)
      · rw [Nat.pow_succ, Nat.mul_comm (2 ^ l)]
        intro hdv
        have := Nat.dvd_of_mul_dvd_mul_right (Nat.pow_pos (by decide)) hdv
        omega
    · have hl0 : 0 < l := by omega
      have hx := hxge hl0
      obtain ⟨h1, _⟩ := hb (2 ^ 52)
      have hvlt : k * 2 ^ e < 2 ^ 52 * 2 ^ l := by
        have h3 : 2 ^ 53 * 2 ^ e ≤ 2 ^ 52 * 2 ^ l := by
          rw [← Nat.pow_add, ← Nat.pow_add]
          exact Nat.pow_le_pow_right (by decide) (by omega)
        exact Nat.lt_of_lt_of_le (Nat.mul_lt_mul_of_pos_right hk (Nat.pow_pos (by decide))) h3
      have hvd : k * 2 ^ e * d < 2 ^ 52 * (d * 2 ^ l) := by
        rw [← hmul]
        exact Nat.mul_lt_mul_of_pos_right hvlt hd
      have hnd : 2 ^ 52 * (d * 2 ^ l) ≤ n := by
        rw [← hmul, ← Nat.pow_add, Nat.add_comm 52 l]
        exact Nat.le_trans (Nat.mul_le_mul_right d hx) (Nat.div_mul_le_self n d)
      unfold gap at h1 ⊢
      generalize m * (d * 2 ^ l) = a at h1 ⊢
      generalize 2 ^ 52 * (d * 2 ^ l) = b at h1 hvd hnd
      generalize k * 2 ^ e * d = c at hvd ⊢
      constructor
      · omega
      · intro h; omega

theorem half {n a b : Nat} (h : gap n a ≤ gap n b) (hl : b < a) : a + b ≤ 2 * n := by
  unfold gap at h; omega

theorem half' {n a b : Nat} (h : gap n b ≤ gap n a) (hl : b < a) : 2 * n ≤ a + b := by
  unfold gap at h; omega

theorem middle {n a b : Nat} (h : 2 * n = a + b) (hl : b < a) : gap n a = gap n b := by
  unfold gap; omega

/-- Rounding does not exchange two numbers (and is determined by its specification). -/
theorem nearest_mono {n d u n' d' u' : Nat} (hd : 0 < d) (hd' : 0 < d') (h : NearestEven n d u) (h' : NearestEven n' d' u') (hle : n * d' ≤ n' * d) : u ≤ u' := by
  refine Decidable.byContradiction fun hc => ?_
  have hlt : u' < u := by omega
  obtain ⟨a1, a2⟩ := h.2 u' h'.1
  obtain ⟨b1, b2⟩ := h'.2 u h.1
  have hx : (u + u') * d ≤ 2 * n := by
    have : u' * d < u * d := Nat.mul_lt_mul_of_pos_right hlt hd
    rw [Nat.add_mul]
    exact half a1 this
  have hy : 2 * n' ≤ (u + u') * d' := by
    have : u' * d' < u * d' := Nat.mul_lt_mul_of_pos_right hlt hd'
    rw [Nat.add_mul]
    exact half' b1 this
  have e1 : (u + u') * d * d' ≤ 2 * (n * d') := by rw [← Nat.mul_assoc]; exact Nat.mul_le_mul_right d' hx
  have e2 : 2 * (n' * d) ≤ (u + u') * d' * d := by rw [← Nat.mul_assoc]; exact Nat.mul_le_mul_right d hy
  have e3 : (u + u') * d' * d = (u + u') * d * d' := by rw [Nat.mul_assoc, Nat.mul_comm d' d, Nat.mul_assoc]
  have hxe : (u + u') * d = 2 * n := by
    refine Nat.le_antisymm hx (Nat.le_of_mul_le_mul_right (c := d') ?_ hd')
    rw [Nat.mul_assoc 2 n d']
    generalize (u + u') * d * d' = A at *
    generalize (u + u') * d' * d = B at *
    omega
  have hye : 2 * n' = (u + u') * d' := by
    refine Nat.le_antisymm hy (Nat.le_of_mul_le_mul_right (c := d) ?_ hd)
    rw [Nat.mul_assoc 2 n' d]
    generalize (u + u') * d * d' = A at *
    generalize (u + u') * d' * d = B at *
    omega
  have t1 : gap n (u * d) = gap n (u' * d) := by
    rw [Nat.add_mul] at hxe
    exact middle hxe.symm (Nat.mul_lt_mul_of_pos_right hlt hd)
  have t2 : gap n' (u' * d') = gap n' (u * d') := by
    rw [Nat.add_mul] at hye
    exact (middle hye (Nat.mul_lt_mul_of_pos_right hlt hd')).symm
  obtain ⟨e, p1, p2⟩ := a2 t1 (by omega)
  obtain ⟨f, q1, q2⟩ := b2 t2 (by omega)
  have : e < f := by
    refine Decidable.byContradiction fun hc => q2 (Nat.dvd_trans (Nat.pow_dvd_pow 2 ?_) p1)
    omega
  refine p2 (Nat.dvd_trans (Nat.pow_dvd_pow 2 ?_) q1)
  omega

theorem nearest_unique {n d u u' : Nat} (hd : 0 < d) (h : NearestEven n d u) (h' : NearestEven n d u') : u = u' :=
  Nat.le_antisymm (nearest_mono hd hd h h' (Nat.le_refl _)) (nearest_mono hd hd h' h (Nat.le_refl _))

theorem roundD_mono {n d n' d' : Nat} (hd : 0 < d) (hd' : 0 < d') (hle : n * d' ≤ n' * d) : roundD n d ≤ roundD n' d' :=
  nearest_mono hd hd' (roundD_nearest hd) (roundD_nearest hd') hle

theorem roundD_mono1 {n n' : Nat} (hle : n ≤ n') : roundD n 1 ≤ roundD n' 1 := roundD_mono (by decide) (by decide) (by omega)

/-- The error is at most 2^-53 of the number (above the subnormal numbers). -/
theorem roundD_error {n d : Nat} (hd : 0 < d) (hn : 2 ^ 52 * d ≤ n) : gap n (roundD n d * d) * 2 ^ 53 ≤ n := by
  have hx : 2 ^ 52 ≤ n / d := (Nat.le_div_iff_mul_le hd).2 hn
  have hne : n / d ≠ 0 := by intro h; rw [h] at hx; exact absurd hx (by decide)
  have hlog : 52 ≤ Nat.log2 (n / d) := (Nat.le_log2 hne).2 hx
  have hg : 2 ^ 52 * grid (n / d) ≤ n / d := by
    unfold grid
    rw [← Nat.pow_add, show 52 + (Nat.log2 (n / d) - 52) = Nat.log2 (n / d) by omega]
    exact Nat.log2_self_le hne
  have hgn : 2 ^ 52 * (d * grid (n / d)) ≤ n := by
    have := Nat.le_trans (Nat.mul_le_mul_right d hg) (Nat.div_mul_le_self n d)
    rw [Nat.mul_comm d, ← Nat.mul_assoc]
    exact this
  have hpos := grid_pos (n / d)
  unfold roundD
  generalize grid (n / d) = g at hgn hpos ⊢
  have hD : 0 < d * g := Nat.mul_pos hd hpos
  have hmul : rne n (d * g) * g * d = rne n (d * g) * (d * g) := by rw [Nat.mul_assoc, Nat.mul_comm g]
  rw [hmul]
  have hhalf : 2 * gap n (rne n (d * g) * (d * g)) ≤ d * g := by
    generalize d * g = D at hD ⊢
    have hn : n = n / D * D + n % D := by rw [Nat.mul_comm]; exact (Nat.div_add_mod n D).symm
    have hr : n % D < D := Nat.mod_lt n hD
    unfold rne gap
    simp only
    generalize n / D = q at hn ⊢
    generalize n % D = r at hn hr ⊢
    split
    · omega
    · have hq1 : (q + 1) * D = q * D + D := Nat.succ_mul q D
      rw [hq1]; omega
  generalize gap n (rne n (d * g) * (d * g)) = a at hhalf ⊢
  generalize d * g = D at hhalf hgn
  omega

end Csn.Proof
