import Verif.Proof.DoubleDisc
import Verif.Props.Chunking
/-
C95: the discriminator in IEEE 754 arithmetic.
-/
namespace Csn.Props
open Csn Spec Proof

attribute [local irreducible] Double.one unit Double.roundD Double.disc Double.discFused Double.k1 Double.k2 discOf

/-- C95: the rounding of the model is the one of IEEE 754: to the nearest double, ties to even. -/
theorem C95_rounding (n d u : Nat) (hd : 0 < d) : u = Double.roundD n d ↔ NearestEven n d u :=
  ⟨fun h => by rw [h]; exact roundD_nearest hd, fun h => nearest_unique hd h (roundD_nearest hd)⟩

/-- A third is rounded up in the 53rd bit, 2^53 + 1 and 2^53 + 3 to the multiples of four. -/
example : Double.roundD unit 3 = 0x15555555555555 * 2 ^ (1074 - 54) ∧ Double.roundD ((2 ^ 53 + 1) * unit) 1 = 2 ^ 53 * unit ∧
    Double.roundD ((2 ^ 53 + 3) * unit) 1 = (2 ^ 53 + 4) * unit := by decide +kernel

theorem k1_nearest : NearestEven (142888852 * unit) (10 ^ 15) Double.k1 := by
  rw [unit_eq, Double.k1]
  exact roundD_nearest (by decide)

theorem k2_nearest : NearestEven (133237515 * unit) (10 ^ 8) Double.k2 := by
  rw [unit_eq, Double.k2]
  exact roundD_nearest (by decide)

theorem prodD_nearest (avg : Nat) : NearestEven (Double.k1 * avg) 1 (prodD avg) := by
  rw [prodD]
  exact roundD_nearest (by decide)

theorem evaluates_some {fused : Bool} {avg : Nat} (h : avg ≤ 9324556) :
    ∃ q, (if fused then Double.discFused avg else Double.disc avg) = some q ∧ ∀ q', Evaluates fused avg q' ↔ q' = q := by
  obtain ⟨g1, g2⟩ := den_pos (good_prod fused) h
  refine ⟨_, by rw [form_eq, discOf_some (good_prod fused) h], fun q' => ⟨?_, ?_⟩⟩
  · rintro ⟨c1, c2, s, x, a1, a2, a3, a4, a5⟩
    obtain rfl := nearest_unique (by decide) a1 k1_nearest
    obtain rfl := nearest_unique (by decide) a2 k2_nearest
    have hs : s = Double.roundD (Double.k2 - prodOf fused avg) 1 := by
      cases fused with
      | true =>
        simp only [if_true] at a3
        exact nearest_unique (by decide) a3.2 (roundD_nearest (by decide))
      | false =>
        simp only [Bool.false_eq_true, if_false] at a3
        obtain ⟨p, b1, b2, b3⟩ := a3
        have hp : p = prodD avg := nearest_unique (by decide) b1 (prodD_nearest avg)
        rw [hp] at b3
        exact nearest_unique (by decide) b3 (roundD_nearest (by decide))
    rw [hs] at a4
    rw [a5, nearest_unique g2 a4 (roundD_nearest g2), unit_eq]
  · rintro rfl
    refine ⟨Double.k1, Double.k2, Double.roundD (Double.k2 - prodOf fused avg) 1, Double.roundD (avg * Double.one * Double.one) (Double.roundD (Double.k2 - prodOf fused avg) 1),
      k1_nearest, k2_nearest, ?_, by rw [unit_eq]; exact roundD_nearest g2, by rw [unit_eq]⟩
    cases fused with
    | true => simp only [if_true]; exact ⟨g1, roundD_nearest (by decide)⟩
    | false =>
      simp only [Bool.false_eq_true, if_false]
      exact ⟨prodD avg, prodD_nearest avg, g1, roundD_nearest (by decide)⟩

/-- C95: for average sizes up to 9324556 the formula has the value that IEEE 754 arithmetic gives it, with and without contraction; for all others that can be
in an index file its conversion is undefined. -/
theorem C95_value (fused : Bool) (avg : Nat) (hl : avg < 2 ^ 32) :
    if avg ≤ 9324556 then ∃ q, (if fused then Double.discFused avg else Double.disc avg) = some q ∧ ∀ q', Evaluates fused avg q' ↔ q' = q
    else (if fused then Double.discFused avg else Double.disc avg) = none := by
  split
  · rename_i h
    exact evaluates_some h
  · rename_i h
    rw [form_eq]
    exact discOf_none (good_prod fused) (by omega) (by omega)

example : Double.disc 9324556 = some 195277481199772 ∧ Double.discFused 9324556 = some 195277481463131 ∧ Double.disc 9324557 = none ∧ Double.disc (2 ^ 32 - 1) = none := by
  decide +kernel

/-- C95: larger average sizes never have smaller discriminators. -/
theorem C95_monotone (fused : Bool) (a b x y : Nat) (h : a ≤ b) (hb : b < 2 ^ 32) (hx : (if fused then Double.discFused a else Double.disc a) = some x)
    (hy : (if fused then Double.discFused b else Double.disc b) = some y) : x ≤ y := by
  have hb' : b ≤ 9324556 := by
    refine Decidable.byContradiction fun hc => ?_
    have := C95_value fused b hb
    rw [if_neg hc] at this
    rw [this] at hy
    cases hy
  rw [form_eq] at hx hy
  exact discOf_mono (good_prod fused) h hb' hx hy

/-- C95: the discriminator can be used (C06) exactly for average sizes between 2 and 9324556; so every claim about scans holds with the formula as it is
computed, for these sizes. -/
theorem C95_usable (fused : Bool) (bufsiz : Nat) (p : Params) (hp : paramsSet p.min p.avg p.max = some p) (hb : 0 < bufsiz) :
    (∃ d, ScanEnv (fun a => if fused then Double.discFused a else Double.disc a) bufsiz p d) ↔ 2 ≤ p.avg ∧ p.avg ≤ 9324556 := by
  have h2 : Double.disc 2 = some 1 ∧ Double.discFused 2 = some 1 := by decide +kernel
  have h1 : Double.disc 1 = some 0 ∧ Double.discFused 1 = some 0 ∧ Double.disc 0 = some 0 ∧ Double.discFused 0 = some 0 := by decide +kernel
  have hdef : Double.disc 65536 = some 0xc17f ∧ Double.discFused 65536 = some 0xc17f := by decide +kernel
  obtain ⟨_, q2, q3, q4⟩ := paramsSet_some hp
  have hl : p.avg < 2 ^ 32 := by omega
  constructor
  · rintro ⟨d, e⟩
    have hda := e.disc_avg
    have hpos := e.pos
    constructor
    · refine Decidable.byContradiction fun hc => ?_
      have ha : p.avg = 0 ∨ p.avg = 1 := by omega
      rcases ha with ha | ha <;> rw [ha] at hda <;> cases fused <;> simp [h1] at hda <;> omega
    · refine Decidable.byContradiction fun hc => ?_
      have := C95_value fused p.avg hl
      rw [if_neg hc] at this
      rw [this] at hda
      cases hda
  · rintro ⟨ha, hb'⟩
    obtain ⟨q, hq, _⟩ := evaluates_some (fused := fused) hb'
    refine ⟨q, hp, hq, by cases fused <;> simp [hdef], ?_, hb⟩
    exact C95_monotone fused 2 p.avg 1 q ha hl (by cases fused <;> simp [h2]) hq

example : paramsSet 16384 8388608 33554432 = some ⟨16384, 8388608, 33554432⟩ ∧ Double.disc 8388608 = some 62724856 := by decide +kernel

/-- C95: up to 8 MiB the discriminator differs from the exact value of the formula (decimal constants, no rounding) by one at most, with and without contraction,
and not at all unless the exact value is less than 2^-20 from an integer. -/
theorem C95_close (fused : Bool) (avg : Nat) (h1 : 1 ≤ avg) (h2 : avg ≤ 2 ^ 23) :
    ∃ q, (if fused then Double.discFused avg else Double.disc avg) = some q ∧
      gap q (avg * 10 ^ 17 / (133237515000000000 - 14288885200 * avg)) ≤ 1 ∧
      (133237515000000000 - 14288885200 * avg ≤ 2 ^ 20 * (avg * 10 ^ 17 % (133237515000000000 - 14288885200 * avg)) →
        133237515000000000 - 14288885200 * avg < 2 ^ 20 * (133237515000000000 - 14288885200 * avg - avg * 10 ^ 17 % (133237515000000000 - 14288885200 * avg)) →
        discExact avg = some q) := by
  have hex : discExact avg = some (avg * 10 ^ 17 / (133237515000000000 - 14288885200 * avg)) := by
    unfold discExact
    rw [if_pos (by omega)]
  obtain ⟨q, a, b, c⟩ := discOf_close (good_prod fused) (near_prod fused) h1 h2
  refine ⟨q, by rw [form_eq]; exact a, b, fun x y => by rw [hex, c x y]⟩

/-- C95: and not at all for powers of two (casync's usual average sizes). -/
theorem C95_powers (k : Nat) (hk : k ≤ 23) : Double.disc (2 ^ k) = discExact (2 ^ k) ∧ Double.discFused (2 ^ k) = discExact (2 ^ k) := by
  have h : ∀ i : Fin 24, Double.disc (2 ^ i.1) = discExact (2 ^ i.1) ∧ Double.discFused (2 ^ i.1) = discExact (2 ^ i.1) := by decide +kernel
  exact h ⟨k, by omega⟩

/-- C95: the discriminator of the default average size is the one of casync (chunker.c:118). -/
theorem C95_default : Evaluates false 65536 0xc17f ∧ Evaluates true 65536 0xc17f := by
  have hdef : Double.disc 65536 = some 0xc17f ∧ Double.discFused 65536 = some 0xc17f := by decide +kernel
  constructor
  · obtain ⟨q, hq, h⟩ := evaluates_some (fused := false) (avg := 65536) (by decide)
    simp only [Bool.false_eq_true, if_false] at hq
    rw [hdef.1] at hq
    cases hq
    exact (h _).2 rfl
  · obtain ⟨q, hq, h⟩ := evaluates_some (fused := true) (avg := 65536) (by decide)
    simp only [if_true] at hq
    rw [hdef.2] at hq
    cases hq
    exact (h _).2 rfl

theorem uncut {mi ma d : Nat} {data : Bytes} {cs : List Bytes} (hd : 2 ^ 32 < d) (h : Chunking mi ma d data cs) :
    ∀ c ∈ cs.dropLast, c.length = max ma 48 := by
  induction h with
  | empty => simp
  | last _ _ => simp
  | @cut data n cs hf hr ih =>
    intro c hc
    have hn : n = max ma 48 := by
      obtain ⟨⟨c1, c2, c3⟩, c4⟩ := hf
      have hma : ma ≤ n := by
        rcases c3 with c3 | ⟨_, c3⟩
        · exact c3
        · have hlt : hashAt data n < 2 ^ 32 := (buzhash ((data.take n).drop (n - 48))).isLt
          rw [Nat.mod_eq_of_lt (by omega)] at c3
          omega
      refine Nat.le_antisymm (Decidable.byContradiction fun hcon => ?_) (Nat.max_le.2 ⟨hma, c1⟩)
      exact c4 (max ma 48) (by omega) ⟨Nat.le_max_right _ _, by omega, Or.inl (Nat.le_max_left _ _)⟩
    cases cs with
    | nil => simp at hc
    | cons x xs =>
      rw [List.dropLast_cons_of_ne_nil (by simp)] at hc
      rcases List.mem_cons.1 hc with rfl | hc
      · rw [List.length_take, Nat.min_eq_left hf.1.2.1, hn]
      · exact ih c hc

/-- C95: for average sizes from 9309388 on no chunk ends because of the hash: all of them but the last are as long as possible. -/
theorem C95_uncut (fused : Bool) (H : Bytes → Id) (bufsiz : Nat) (p : Params) (hp : paramsSet p.min p.avg p.max = some p) (hb : 0 < bufsiz)
    (h1 : 9309388 ≤ p.avg) (h2 : p.avg ≤ 9324556) (f : Bytes) (sys : List Sys) (hz : Sys.zero ∉ sys.tail)
    (hok : (scan H (fun a => if fused then Double.discFused a else Double.disc a) bufsiz p f sys).1 = .ok) :
    ∀ s ∈ (scan H (fun a => if fused then Double.discFused a else Double.disc a) bufsiz p f sys).2.dropLast, s.len = p.max := by
  obtain ⟨d, env⟩ := (C95_usable fused bufsiz p hp hb).2 ⟨by omega, h2⟩
  obtain ⟨_, q2, q3, q4⟩ := paramsSet_some hp
  have hlow : ∃ x, (if fused then Double.discFused 9309388 else Double.disc 9309388) = some x ∧ 2 ^ 32 < x := by
    have h : Double.disc 9309388 = some 4295214886 ∧ Double.discFused 9309388 = some 4295214886 := by decide +kernel
    exact ⟨4295214886, by cases fused <;> simp [h], by decide⟩
  obtain ⟨x, hx, hxl⟩ := hlow
  have hd : 2 ^ 32 < d := Nat.lt_of_lt_of_le hxl (C95_monotone fused _ p.avg x d h1 (by omega) hx env.disc_avg)
  obtain ⟨cs, g1, g2⟩ := C01_scan_reports_spec_chunks H env f sys hz hok
  intro s hs
  rw [g2, report, ← List.map_dropLast, dropLast_place] at hs
  obtain ⟨c, hc, hl⟩ := report_mem hs
  rw [hl, uncut hd g1 c hc]
  omega

example : paramsSet 16384 9309388 9309389 = some ⟨16384, 9309388, 9309389⟩ := by decide

/-- 48 bytes whose hash is one less than the discriminator for 9306572 without contraction. -/
def edgeWindow : Bytes :=
  [0, 0, 0, 0, 0, 0, 0, 0, 0, 0, 0, 0, 0, 0, 0, 0, 3, 3, 3, 3, 3, 0, 3, 3, 0, 0, 0, 0, 3, 0, 3, 0, 0, 0, 3, 0, 3, 3, 3, 3, 3, 0, 0, 3, 0, 0, 3, 0]

/-- The state after a scan. -/
def stateOf : Res (Option Nat × Chunker) → Chunker
  | .ok (_, c) => c
  | .stop _ => Chunker.init

/-- C95: machines with and without contraction can divide the same file differently with the same parameters (which are accepted). -/
theorem C95_machines_differ : ∃ (p : Params) (f : Bytes) (sys : List Sys), paramsSet p.min p.avg p.max = some p ∧ ∀ H : Bytes → Id,
    (scan H Double.disc 8192 p f sys).1 = .ok ∧ (scan H Double.discFused 8192 p f sys).1 = .ok ∧
    (scan H Double.disc 8192 p f sys).2.map (·.len) = [48, 1] ∧ (scan H Double.discFused 8192 p f sys).2.map (·.len) = [49] := by
  refine ⟨⟨20, 9306572, 9306573⟩, edgeWindow ++ [7], [.some 0, .some 99, .some 0], by decide, fun H => ?_⟩
  have hd : Double.disc 9306572 = some 3621571223 ∧ Double.discFused 9306572 = some 3621571224 := by decide +kernel
  obtain ⟨a, b, ha, hb⟩ : ∃ a b, chunkerScan ⟨20, 9306572, 9306573⟩ 3621571223 Chunker.init (edgeWindow ++ [7]) = .ok (some 48, a) ∧
      chunkerScan ⟨20, 9306572, 9306573⟩ 3621571223 a.reset [7] = .ok (none, b) :=
    ⟨stateOf (chunkerScan ⟨20, 9306572, 9306573⟩ 3621571223 Chunker.init (edgeWindow ++ [7])),
      stateOf (chunkerScan ⟨20, 9306572, 9306573⟩ 3621571223
        (stateOf (chunkerScan ⟨20, 9306572, 9306573⟩ 3621571223 Chunker.init (edgeWindow ++ [7]))).reset [7]), by decide +kernel, by decide +kernel⟩
  obtain ⟨c, hc⟩ : ∃ c, chunkerScan ⟨20, 9306572, 9306573⟩ 3621571224 Chunker.init (edgeWindow ++ [7]) = .ok (none, c) :=
    ⟨stateOf (chunkerScan ⟨20, 9306572, 9306573⟩ 3621571224 Chunker.init (edgeWindow ++ [7])), by decide +kernel⟩
  have g1 : ((edgeWindow ++ [7]).drop 0).take (min (99 + 1) 8192) = edgeWindow ++ [7] := by decide
  have g2 : (edgeWindow ++ [7]).drop 48 = [7] := by decide
  have g3 : (edgeWindow ++ [7]).length = 49 := by decide
  have g5 : (edgeWindow ++ [7]).isEmpty = false := by decide
  generalize edgeWindow ++ [7] = f at *
  simp only [scan, scanFd, hd.1, hd.2, scanLoop, g1, g5, g3, Bool.false_eq_true, if_false, Nat.zero_add]
  rw [show (49 : Nat) = 48 + 1 from rfl]
  simp [scanBuf, g2, g3, ha, hb, hc, collect]

end Csn.Props
