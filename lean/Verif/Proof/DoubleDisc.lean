import Verif.Proof.Double
/-
The discriminator in doubles (C95).
-/
namespace Csn.Proof
open Csn Spec Double

attribute [local irreducible] one

/-- The formula with the product given. -/
def discOf (P : Nat → Nat) (avg : Nat) : Option Nat :=
  if P avg ≤ k2 then quotient avg false (roundD (k2 - P avg) 1) else quotient avg true (roundD (P avg - k2) 1)

def prodD (avg : Nat) : Nat := roundD (k1 * avg) 1
def prodF (avg : Nat) : Nat := k1 * avg

theorem disc_eq (avg : Nat) : disc avg = discOf prodD avg := by unfold disc discOf prodD; rfl
theorem discFused_eq (avg : Nat) : discFused avg = discOf prodF avg := by unfold discFused discOf prodF; rfl

theorem one_pos : 0 < one := by decide +kernel

/-- What is needed of the product; everything but the first is about single numbers. -/
structure GoodProd (P : Nat → Nat) : Prop where
  mono : ∀ a b, a ≤ b → P a ≤ P b
  below : P 9324556 < k2
  den : 0 < roundD (k2 - P 9324556) 1
  room : roundD (9324556 * one * one) (roundD (k2 - P 9324556) 1) / one < 2 ^ 64
  above : k2 < P 9324557
  den' : 0 < roundD (P 9324557 - k2) 1
  over : 0 < roundD (9324557 * one * one) (roundD (P (2 ^ 32) - k2) 1) / one

theorem good_prodD : GoodProd prodD where
  mono := fun a b h => roundD_mono1 (Nat.mul_le_mul_left k1 h)
  below := by decide +kernel
  den := by decide +kernel
  room := by decide +kernel
  above := by decide +kernel
  den' := by decide +kernel
  over := by decide +kernel

theorem good_prodF : GoodProd prodF where
  mono := fun a b h => Nat.mul_le_mul_left k1 h
  below := by decide +kernel
  den := by decide +kernel
  room := by decide +kernel
  above := by decide +kernel
  den' := by decide +kernel
  over := by decide +kernel

theorem quot_mono {a a' s s' : Nat} (ha : a ≤ a') (hs : s' ≤ s) (h0 : 0 < s') : roundD (a * one * one) s / one ≤ roundD (a' * one * one) s' / one :=
  Nat.div_le_div_right (roundD_mono (by omega) h0 (Nat.mul_le_mul (Nat.mul_le_mul_right _ (Nat.mul_le_mul_right _ ha)) hs))

theorem den_pos {P : Nat → Nat} (g : GoodProd P) {avg : Nat} (h : avg ≤ 9324556) : P avg < k2 ∧ 0 < roundD (k2 - P avg) 1 := by
  have h1 := g.mono _ _ h
  have h2 := g.below
  refine ⟨by omega, Nat.lt_of_lt_of_le g.den (roundD_mono1 (by omega))⟩

theorem discOf_some {P : Nat → Nat} (g : GoodProd P) {avg : Nat} (h : avg ≤ 9324556) :
    discOf P avg = some (roundD (avg * one * one) (roundD (k2 - P avg) 1) / one) := by
  obtain ⟨h1, h2⟩ := den_pos g h
  have h3 : roundD (avg * one * one) (roundD (k2 - P avg) 1) / one < 2 ^ 64 := by
    refine Nat.lt_of_le_of_lt (quot_mono h (roundD_mono1 ?_) g.den) g.room
    have := g.mono _ _ h
    omega
  unfold discOf quotient
  rw [if_pos (by omega), if_neg (by omega)]
  simp only [Bool.false_eq_true, if_false]
  rw [if_pos h3]

theorem discOf_none {P : Nat → Nat} (g : GoodProd P) {avg : Nat} (h : 9324556 < avg) (hl : avg ≤ 2 ^ 32) : discOf P avg = none := by
  have h1 := g.mono 9324557 avg (by omega)
  have h2 := g.mono avg (2 ^ 32) hl
  have h3 := g.above
  have h4 : 0 < roundD (P avg - k2) 1 := Nat.lt_of_lt_of_le g.den' (roundD_mono1 (by omega))
  have h5 : 0 < roundD (avg * one * one) (roundD (P avg - k2) 1) / one :=
    Nat.lt_of_lt_of_le g.over (quot_mono (by omega) (roundD_mono1 (by omega)) h4)
  unfold discOf quotient
  rw [if_neg (by omega), if_neg (by omega)]
  simp only [if_true]
  rw [if_neg (by omega)]

theorem discOf_mono {P : Nat → Nat} (g : GoodProd P) {a b x y : Nat} (h : a ≤ b) (hb : b ≤ 9324556) (ha : discOf P a = some x) (hy : discOf P b = some y) : x ≤ y := by
  rw [discOf_some g (Nat.le_trans h hb)] at ha
  rw [discOf_some g hb] at hy
  cases ha
  cases hy
  refine quot_mono h (roundD_mono1 ?_) (den_pos g hb).2
  have := g.mono _ _ h
  omega

theorem gap_mul (c a b : Nat) : gap (c * a) (c * b) = c * gap a b := by
  unfold gap
  rw [Nat.mul_add, Nat.mul_sub, Nat.mul_sub]

theorem gap_comm (a b : Nat) : gap a b = gap b a := by unfold gap; omega

theorem gap_triangle (a b c : Nat) : gap a c ≤ gap a b + gap b c := by unfold gap; omega

/-- From the error of the denominator to the error of the quotient. -/
theorem quotient_error {a s Q D U : Nat} (hU : 0 < U) (ha : a ≤ 2 ^ 23) (hD : 13373658300198400 ≤ D) (hs : gap (10 ^ 17 * s) (U * D) * 2 ^ 50 ≤ 10 ^ 17 * U)
    (hQ : gap (a * U * U) (Q * s) * 2 ^ 53 ≤ a * U * U) : gap (Q * D) (a * 10 ^ 17 * U) * 2 ^ 20 ≤ D * U := by
  have hUD : U * 13373658300198400 ≤ U * D := Nat.mul_le_mul_left U hD
  have hs8 : U ≤ 8 * s := by
    generalize U * D = X at hs hUD
    unfold gap at hs
    omega
  have haU : a * U * U ≤ 2 ^ 23 * (U * U) := by rw [Nat.mul_assoc]; exact Nat.mul_le_mul_right _ ha
  have hQs : Q * s ≤ 2 ^ 24 * (U * U) := by
    generalize Q * s = X at hQ ⊢
    generalize U * U = Y at haU ⊢
    generalize a * U * U = Z at haU hQ
    unfold gap at hQ
    omega
  have hQU : Q * U ≤ 2 ^ 27 * (U * U) := by
    have h1 : Q * U ≤ Q * (8 * s) := Nat.mul_le_mul_left Q hs8
    have h2 : Q * (8 * s) = 8 * (Q * s) := Nat.mul_left_comm Q 8 s
    omega
  have g1 : gap (10 ^ 17 * (a * U * U)) (10 ^ 17 * (Q * s)) * 2 ^ 53 ≤ 10 ^ 17 * (2 ^ 23 * (U * U)) := by
    rw [gap_mul, Nat.mul_assoc]
    exact Nat.mul_le_mul_left _ (Nat.le_trans hQ haU)
  have g2 : gap (10 ^ 17 * (Q * s)) (Q * (U * D)) * 2 ^ 50 ≤ 10 ^ 17 * (2 ^ 27 * (U * U)) := by
    rw [Nat.mul_left_comm (10 ^ 17) Q s, gap_mul, Nat.mul_assoc]
    refine Nat.le_trans (Nat.mul_le_mul_left Q hs) ?_
    rw [Nat.mul_left_comm Q (10 ^ 17) U]
    exact Nat.mul_le_mul_left _ hQU
  have g3 := gap_triangle (10 ^ 17 * (a * U * U)) (10 ^ 17 * (Q * s)) (Q * (U * D))
  have g4 : gap (10 ^ 17 * (a * U * U)) (Q * (U * D)) = U * gap (Q * D) (a * 10 ^ 17 * U) := by
    rw [gap_comm, ← gap_mul]
    congr 1
    · exact Nat.mul_left_comm Q U D
    · rw [Nat.mul_comm a (10 ^ 17)]
      simp only [Nat.mul_assoc, Nat.mul_left_comm]
  rw [g4] at g3
  have hDU : 13373658300198400 * (U * U) ≤ D * (U * U) := Nat.mul_le_mul_right _ hD
  refine Nat.le_of_mul_le_mul_left (c := U) ?_ hU
  have e1 : U * (gap (Q * D) (a * 10 ^ 17 * U) * 2 ^ 20) = U * gap (Q * D) (a * 10 ^ 17 * U) * 2 ^ 20 := (Nat.mul_assoc _ _ _).symm
  have e2 : U * (D * U) = D * (U * U) := Nat.mul_left_comm U D U
  rw [e1, e2]
  generalize U * gap (Q * D) (a * 10 ^ 17 * U) = G at g3 ⊢
  generalize gap (10 ^ 17 * (a * U * U)) (10 ^ 17 * (Q * s)) = A at g1 g3
  generalize gap (10 ^ 17 * (Q * s)) (Q * (U * D)) = B at g2 g3
  generalize D * (U * U) = C at hDU ⊢
  generalize U * U = W at g1 g2 hDU
  clear hs hs8 hQ hQs hQU haU hUD g4 e1 e2 ha hU hD
  simp only [Nat.reducePow] at g1 g2 ⊢
  lia

/-- What such an error does to the integer part. -/
theorem floors {Q D N U : Nat} (hU : 0 < U) (hD : 0 < D) (h : gap (Q * D) (N * U) * 2 ^ 20 ≤ D * U) :
    gap (Q / U) (N / D) ≤ 1 ∧ (D ≤ 2 ^ 20 * (N % D) → D < 2 ^ 20 * (D - N % D) → Q / U = N / D) := by
  have hN : N = N / D * D + N % D := by rw [Nat.mul_comm]; exact (Nat.div_add_mod N D).symm
  have hr : N % D < D := Nat.mod_lt N hD
  have hQ : Q = Q / U * U + Q % U := by rw [Nat.mul_comm]; exact (Nat.div_add_mod Q U).symm
  have ht : Q % U < U := Nat.mod_lt Q hU
  generalize N / D = e at hN ⊢
  generalize N % D = r at hN hr ⊢
  generalize Q / U = q at hQ ⊢
  generalize Q % U = t at hQ ht
  have e1 : Q * D = q * (D * U) + t * D := by rw [hQ, Nat.add_mul, Nat.mul_assoc, Nat.mul_comm U D]
  have e2 : N * U = e * (D * U) + r * U := by rw [hN, Nat.add_mul, Nat.mul_assoc]
  rw [e1, e2] at h
  have b1 : t * D < D * U := by rw [Nat.mul_comm D U]; exact Nat.mul_lt_mul_of_pos_right ht hD
  have b2 : r * U < D * U := Nat.mul_lt_mul_of_pos_right hr hU
  have c1 : D ≤ 2 ^ 20 * r → D * U ≤ 2 ^ 20 * (r * U) := fun h => by rw [← Nat.mul_assoc]; exact Nat.mul_le_mul_right U h
  have c2 : D < 2 ^ 20 * (D - r) → D * U + 2 ^ 20 * (r * U) < 2 ^ 20 * (D * U) := fun h => by
    have h' : D + 2 ^ 20 * r < 2 ^ 20 * D := by omega
    have := Nat.mul_lt_mul_of_pos_right h' hU
    rw [Nat.add_mul, Nat.mul_assoc, Nat.mul_assoc] at this
    exact this
  generalize hW : D * U = W at *
  generalize t * D = T at *
  generalize r * U = R at *
  have hle : q ≤ e + 1 := by
    refine Decidable.byContradiction fun hc => ?_
    have h2 : (e + 2) * W ≤ q * W := Nat.mul_le_mul_right W (by omega)
    rw [Nat.add_mul] at h2
    unfold gap at h
    omega
  have hge : e ≤ q + 1 := by
    refine Decidable.byContradiction fun hc => ?_
    have h2 : (q + 2) * W ≤ e * W := Nat.mul_le_mul_right W (by omega)
    rw [Nat.add_mul] at h2
    unfold gap at h
    omega
  refine ⟨by unfold gap; omega, fun h1 h2 => ?_⟩
  have h1' := c1 h1
  have h2' := c2 h2
  have hcase : q = e ∨ q = e + 1 ∨ e = q + 1 := by omega
  rcases hcase with hq | rfl | rfl
  · exact hq
  · rw [Nat.add_mul, Nat.one_mul] at h
    unfold gap at h
    omega
  · rw [Nat.add_mul, Nat.one_mul] at h
    unfold gap at h
    omega

/-- A common factor, to keep the numbers short. -/
def big : Nat := 2 ^ 1000

theorem k1_val : k1 = 2699094101842085 * big := by decide +kernel
theorem k2_val : k2 = 6000484229057709 * 2 ^ 22 * big := by decide +kernel
theorem one_val : one = 2 ^ 74 * big := by decide +kernel

/-- How far the product may be from the exact one. -/
def NearProd (P : Nat → Nat) : Prop := ∀ avg, 1 ≤ avg → gap (k1 * avg) (P avg) * 2 ^ 53 ≤ k1 * avg

theorem near_prodD : NearProd prodD := fun avg h => by
  have := @roundD_error (k1 * avg) 1 (by decide) (by
    have h1 : k1 * 1 ≤ k1 * avg := Nat.mul_le_mul_left k1 h
    have h2 : 2 ^ 52 * 1 ≤ k1 * 1 := by decide +kernel
    exact Nat.le_trans h2 h1)
  rw [Nat.mul_one] at this
  exact this

theorem near_prodF : NearProd prodF := fun avg _ => by
  unfold prodF gap
  simp

theorem den_error {P : Nat → Nat} (g : GoodProd P) (hn : NearProd P) {avg : Nat} (h1 : 1 ≤ avg) (h2 : avg ≤ 2 ^ 23) :
    gap (10 ^ 17 * roundD (k2 - P avg) 1) (one * (133237515000000000 - 14288885200 * avg)) * 2 ^ 50 ≤ 10 ^ 17 * one := by
  have hp := hn avg h1
  have hb := (den_pos g (avg := avg) (by omega)).1
  have hbig : 2 ^ 52 ≤ big := by decide +kernel
  have e0 : one * (133237515000000000 - 14288885200 * avg) = 133237515000000000 * one - 14288885200 * (one * avg) := by
    rw [Nat.mul_sub, Nat.mul_comm one, Nat.mul_left_comm]
  rw [e0]
  have hsR := @roundD_error (k2 - P avg) 1 (by decide)
  rw [Nat.mul_one, Nat.mul_one] at hsR
  rw [k1_val, k2_val] at *
  rw [one_val]
  have e1 : 2699094101842085 * big * avg = 2699094101842085 * (big * avg) := Nat.mul_assoc _ _ _
  have e2 : 2 ^ 74 * big * avg = 2 ^ 74 * (big * avg) := Nat.mul_assoc _ _ _
  have hT : big * avg ≤ big * 2 ^ 23 := Nat.mul_le_mul_left _ h2
  rw [e1] at hp
  rw [e2]
  generalize roundD (6000484229057709 * 2 ^ 22 * big - P avg) 1 = s at *
  generalize P avg = p at *
  generalize big * avg = T at *
  clear e0 e1 e2
  generalize big = V at *
  have hlow : 2 ^ 52 ≤ 6000484229057709 * 2 ^ 22 * V - p := by
    unfold gap at hp
    omega
  have hs := hsR hlow
  clear hsR hn g hlow
  unfold gap at hp hs ⊢
  simp only [Nat.reducePow, Nat.reduceMul] at hp hs hT hb hbig ⊢
  lia

theorem discOf_close {P : Nat → Nat} (g : GoodProd P) (hn : NearProd P) {avg : Nat} (h1 : 1 ≤ avg) (h2 : avg ≤ 2 ^ 23) :
    ∃ q, discOf P avg = some q ∧ gap q (avg * 10 ^ 17 / (133237515000000000 - 14288885200 * avg)) ≤ 1 ∧
      (133237515000000000 - 14288885200 * avg ≤ 2 ^ 20 * (avg * 10 ^ 17 % (133237515000000000 - 14288885200 * avg)) →
        133237515000000000 - 14288885200 * avg < 2 ^ 20 * (133237515000000000 - 14288885200 * avg - avg * 10 ^ 17 % (133237515000000000 - 14288885200 * avg)) →
        q = avg * 10 ^ 17 / (133237515000000000 - 14288885200 * avg)) := by
  refine ⟨_, discOf_some g (by omega), ?_⟩
  have hden := den_pos g (avg := avg) (by omega)
  have he := den_error g hn h1 h2
  have hD : 13373658300198400 ≤ 133237515000000000 - 14288885200 * avg := by omega
  have hle : roundD (k2 - P avg) 1 ≤ roundD k2 1 := roundD_mono1 (by omega)
  have hk : 2 ^ 52 * roundD k2 1 ≤ one * one := by decide +kernel
  have hlow : 2 ^ 52 * roundD (k2 - P avg) 1 ≤ avg * one * one := by
    refine Nat.le_trans (Nat.le_trans (Nat.mul_le_mul_left _ hle) hk) ?_
    rw [Nat.mul_assoc]
    exact Nat.le_mul_of_pos_left _ (by omega)
  have hQ := roundD_error (n := avg * one * one) hden.2 hlow
  exact floors one_pos (by omega) (quotient_error one_pos h2 hD he hQ)

/-- The formula with or without contraction. -/
def prodOf (fused : Bool) : Nat → Nat := if fused then prodF else prodD

theorem good_prod (fused : Bool) : GoodProd (prodOf fused) := by
  cases fused
  · exact good_prodD
  · exact good_prodF

theorem near_prod (fused : Bool) : NearProd (prodOf fused) := by
  cases fused
  · exact near_prodD
  · exact near_prodF

theorem form_eq (fused : Bool) (avg : Nat) : (if fused then discFused avg else disc avg) = discOf (prodOf fused) avg := by
  cases fused
  · simp only [Bool.false_eq_true, if_false, disc_eq, prodOf]
  · simp only [if_true, discFused_eq, prodOf]

theorem unit_eq : unit = one := by decide +kernel

end Csn.Proof
