import Verif.Props.Double
/-
C95: for which parameters a scan is defined.
-/
namespace Csn.Props
open Csn Spec Proof

attribute [local irreducible] Double.one unit Double.roundD Double.disc Double.discFused Double.k1 Double.k2 discOf

/-- A chunker whose chunk has at least what is in the window. -/
def Filled (c : Chunker) : Prop := c.windowFill ≤ c.chunkSize

theorem shallBreak_short {p : Params} (hm : p.max ≤ 48) {c : Chunker} (hc : 48 ≤ c.chunkSize) (d : Nat) : shallBreak p d c = .ok true := by
  unfold shallBreak
  rw [if_pos (by omega)]

theorem chunkerScan_short {p : Params} (hm : p.max ≤ 48) {c : Chunker} (hc : Filled c) (buf : Bytes) (d e : Nat) :
    chunkerScan p d c buf = chunkerScan p e c buf ∧ ∀ n c', chunkerScan p d c buf = .ok (n, c') → n = none → Filled c' := by
  unfold Filled at *
  unfold chunkerScan scanTail
  split
  · dsimp only
    split
    · refine ⟨rfl, fun n c' h _ => ?_⟩
      simp only [Res.ok.injEq, Prod.mk.injEq] at h
      obtain ⟨_, rfl⟩ := h
      dsimp only
      omega
    · rename_i h1 h2
      rw [shallBreak_short hm (by dsimp only; omega), shallBreak_short hm (by dsimp only; omega)]
      refine ⟨rfl, fun n c' h hn => ?_⟩
      subst hn
      simp at h
  · rw [shallBreak_short hm (by omega), shallBreak_short hm (by omega)]
    refine ⟨rfl, fun n c' h hn => ?_⟩
    subst hn
    simp at h

theorem scanBuf_short {σ : Type} (H : Bytes → Id) {p : Params} (hm : p.max ≤ 48) (d e : Nat) (cb : σ → Seg → CbRes σ) :
    ∀ (fuel : Nat) (c : Chunker) (offset last : Nat) (s : σ) (buf : Bytes), Filled c →
      scanBuf H p d cb fuel c offset last s buf = scanBuf H p e cb fuel c offset last s buf ∧
      ((scanBuf H p d cb fuel c offset last s buf).1 = .ok → Filled (scanBuf H p d cb fuel c offset last s buf).2.1)
  | fuel, c, offset, last, s, buf, hc => by
    unfold scanBuf
    split
    · exact ⟨rfl, fun _ => hc⟩
    · cases fuel with
      | zero => exact ⟨rfl, fun h => by cases h⟩
      | succ fuel =>
        obtain ⟨g1, g2⟩ := chunkerScan_short hm hc buf d e
        dsimp only
        rw [← g1]
        cases hs : chunkerScan p d c buf with
        | stop x => exact ⟨rfl, fun h => by cases h⟩
        | ok r =>
          obtain ⟨n, c'⟩ := r
          cases n with
          | none => exact ⟨rfl, fun _ => g2 _ _ hs rfl⟩
          | some n =>
            dsimp only
            cases cb s ⟨last, (offset + n - last) % 2 ^ 32, H c'.sha⟩ with
            | stop y s' => exact ⟨rfl, fun h => by cases h⟩
            | fail s' => exact ⟨rfl, fun h => by cases h⟩
            | ok s' => exact scanBuf_short H hm d e cb fuel c'.reset _ _ s' _ (Nat.le_refl 0)

theorem scanLoop_short {σ : Type} (H : Bytes → Id) {p : Params} (hm : p.max ≤ 48) (d e bufsiz : Nat) (cb : σ → Seg → CbRes σ) (f : Bytes) :
    ∀ (sys : List Sys) (c : Chunker) (pos offset last : Nat) (s : σ), Filled c →
      scanLoop H p d bufsiz cb f c pos offset last s sys = scanLoop H p e bufsiz cb f c pos offset last s sys
  | [], _, _, _, _, _, _ => rfl
  | x :: r, c, pos, offset, last, s, hc => by
    cases x with
    | eintr => exact scanLoop_short H hm d e bufsiz cb f r c pos offset last s hc
    | err => rfl
    | zero => rfl
    | some k =>
      simp only [scanLoop]
      split
      · rfl
      · obtain ⟨g1, g2⟩ := scanBuf_short H hm d e cb ((f.drop pos).take (min (k + 1) bufsiz)).length c offset last s
          ((f.drop pos).take (min (k + 1) bufsiz)) hc
        rw [← g1]
        generalize scanBuf H p d cb ((f.drop pos).take (min (k + 1) bufsiz)).length c offset last s ((f.drop pos).take (min (k + 1) bufsiz)) = t at *
        obtain ⟨t1, c', o', l', s'⟩ := t
        cases t1 with
        | stop y => rfl
        | fail => rfl
        | ok => exact scanLoop_short H hm d e bufsiz cb f r c' _ _ _ s' (g2 rfl)

/-- If chunks have at most 48 bytes, the discriminator does not matter. -/
theorem scan_short (H : Bytes → Id) {disc disc' : Nat → Option Nat} {bufsiz : Nat} {p : Params} (hm : p.max ≤ 48) {d e : Nat} (hd : disc p.avg = some d)
    (he : disc' p.avg = some e) (f : Bytes) (sys : List Sys) : scan H disc bufsiz p f sys = scan H disc' bufsiz p f sys := by
  simp only [scan, scanFd, hd, he]
  cases sys with
  | nil => rfl
  | cons x r =>
    cases x <;> try rfl
    all_goals
      dsimp only
      rw [scanLoop_short H hm d e bufsiz collect f r Chunker.init 0 0 0 [] (Nat.le_refl 0)]

/-- Until the window is full nothing is decided; then the division by zero follows. -/
theorem chunkerScan_zero {p : Params} (ha : p.avg ≠ 65536) (hmin : p.min ≤ 48) (hm : 48 < p.max) {c : Chunker} (h1 : c.windowFill = c.chunkSize)
    (h2 : c.windowFill < 48) (buf : Bytes) :
    if c.windowFill + buf.length < 48 then
      ∃ c', chunkerScan p 0 c buf = .ok (none, c') ∧ c'.windowFill = c'.chunkSize ∧ c'.windowFill = c.windowFill + buf.length
    else chunkerScan p 0 c buf = .stop .ub := by
  unfold chunkerScan
  rw [if_pos h2]
  split
  · rename_i h
    dsimp only
    rw [if_pos (by omega)]
    exact ⟨_, rfl, by dsimp only; omega, by dsimp only; omega⟩
  · rename_i h
    dsimp only
    rw [if_neg (by omega)]
    unfold scanTail shallBreak
    dsimp only
    rw [if_neg (by omega), if_neg (by omega), if_neg ha, if_pos rfl]

theorem scanLoop_zero {σ : Type} (H : Bytes → Id) {p : Params} (ha : p.avg ≠ 65536) (hmin : p.min ≤ 48) (hm : 48 < p.max) {bufsiz : Nat} (hb : 0 < bufsiz)
    (cb : σ → Seg → CbRes σ) (f : Bytes) (hf : 48 ≤ f.length) :
    ∀ (sys : List Sys) (c : Chunker) (offset last : Nat) (s : σ), c.windowFill = c.chunkSize → c.windowFill < 48 → Sys.err ∉ sys → Sys.zero ∉ sys →
      48 ≤ c.windowFill + okCalls sys → (scanLoop H p 0 bufsiz cb f c c.windowFill offset last s sys).1 = .stop .ub
  | [], c, offset, last, s, h1, h2, _, _, h5 => by
    simp [okCalls] at h5
    omega
  | x :: r, c, offset, last, s, h1, h2, h3, h4, h5 => by
    have h3' : Sys.err ∉ r := fun h => h3 (List.mem_cons_of_mem _ h)
    have h4' : Sys.zero ∉ r := fun h => h4 (List.mem_cons_of_mem _ h)
    cases x with
    | eintr =>
      rw [okCalls_cons_other _ _ (by intro k; simp)] at h5
      exact scanLoop_zero H ha hmin hm hb cb f hf r c offset last s h1 h2 h3' h4' h5
    | err => exact absurd List.mem_cons_self h3
    | zero => exact absurd List.mem_cons_self h4
    | some k =>
      rw [okCalls_cons_some] at h5
      simp only [scanLoop]
      have hlen : ((f.drop c.windowFill).take (min (k + 1) bufsiz)).length = min (min (k + 1) bufsiz) (f.length - c.windowFill) := by
        rw [List.length_take, List.length_drop]
      generalize (f.drop c.windowFill).take (min (k + 1) bufsiz) = got at *
      have hpos : 0 < got.length := by omega
      have hne : got.isEmpty = false := by
        cases got with
        | nil => cases hpos
        | cons _ _ => rfl
      rw [hne]
      simp only [Bool.false_eq_true, if_false]
      have hz := chunkerScan_zero ha hmin hm h1 h2 got
      obtain ⟨m, hgm⟩ : ∃ m, got.length = m + 1 := ⟨got.length - 1, by omega⟩
      split at hz
      · rename_i hlt
        obtain ⟨c', e1, e2, e3⟩ := hz
        have hbuf : scanBuf H p 0 cb got.length c offset last s got = (.ok, c', offset + got.length, last, s) := by
          rw [hgm]
          unfold scanBuf
          rw [if_neg (by omega)]
          simp only [e1, hgm]
        rw [hbuf]
        dsimp only
        rw [← e3]
        exact scanLoop_zero H ha hmin hm hb cb f hf r c' _ _ s e2 (by omega) h3' h4' (by omega)
      · have hbuf : scanBuf H p 0 cb got.length c offset last s got = (.stop .ub, c, offset, last, s) := by
          rw [hgm]
          unfold scanBuf
          rw [if_neg (by omega)]
          simp only [hz]
        rw [hbuf]

/-- C95: with the average size 1 (and chunks that may be longer than the hash window) every file of at least 48 bytes leads to a division by zero, as soon as
48 bytes were read. -/
theorem C95_division (fused : Bool) (H : Bytes → Id) (bufsiz : Nat) (hb : 0 < bufsiz) (p : Params) (hp : paramsSet p.min p.avg p.max = some p)
    (ha : p.avg = 1) (hm : 48 < p.max) (f : Bytes) (hf : 48 ≤ f.length) (k : Nat) (sys : List Sys) (he : Sys.err ∉ sys) (hz : Sys.zero ∉ sys)
    (hn : 48 ≤ okCalls sys) :
    (scan H (fun a => if fused then Double.discFused a else Double.disc a) bufsiz p f (.some k :: sys)).1 = .stop .ub := by
  have h1 : Double.disc 1 = some 0 ∧ Double.discFused 1 = some 0 := by decide +kernel
  obtain ⟨_, q2, q3, q4⟩ := paramsSet_some hp
  have hd : (if fused then Double.discFused p.avg else Double.disc p.avg) = some 0 := by
    rw [ha]
    cases fused <;> simp [h1]
  simp only [scan, scanFd, hd]
  exact scanLoop_zero H (by omega) (by omega) hm hb collect f hf sys Chunker.init 0 0 [] rfl (by decide) he hz (by show 48 ≤ 0 + okCalls sys; omega)

/-- C95: with average sizes above 9324556 every scan is undefined from the start. -/
theorem C95_conversion (fused : Bool) (H : Bytes → Id) (bufsiz : Nat) (p : Params) (hp : paramsSet p.min p.avg p.max = some p) (ha : 9324556 < p.avg)
    (f : Bytes) (sys : List Sys) :
    (scan H (fun a => if fused then Double.discFused a else Double.disc a) bufsiz p f sys).1 = .stop .ub := by
  obtain ⟨_, q2, q3, q4⟩ := paramsSet_some hp
  have := C95_value fused p.avg (by omega)
  rw [if_neg (by omega)] at this
  simp only [scan, scanFd, this]

/-- C95: the accepted parameters for which no scan is undefined. -/
theorem C95_defined (fused : Bool) (bufsiz : Nat) (hb : 0 < bufsiz) (p : Params) (hp : paramsSet p.min p.avg p.max = some p) :
    (∀ (H : Bytes → Id) (f : Bytes) (sys : List Sys),
      (scan H (fun a => if fused then Double.discFused a else Double.disc a) bufsiz p f sys).1 ≠ .stop .ub) ↔
    (2 ≤ p.avg ∧ p.avg ≤ 9324556) ∨ p.max ≤ 48 := by
  obtain ⟨_, q2, q3, q4⟩ := paramsSet_some hp
  constructor
  · intro h
    refine Decidable.byContradiction fun hc => ?_
    by_cases h2 : 9324556 < p.avg
    · exact h (fun _ => []) [] [] (C95_conversion fused _ bufsiz p hp h2 _ _)
    · refine h (fun _ => []) (List.replicate 48 0) (.some 0 :: List.replicate 48 (.some 0))
        (C95_division fused _ bufsiz hb p hp (by omega) (by omega) _ (by simp) 0 _ (by simp) (by simp) (by decide))
  · rintro (h | h) H f sys hc
    · obtain ⟨d, env⟩ := (C95_usable fused bufsiz p hp hb).2 h
      rcases C06_scan_defined_partial H env f sys with g | g | g <;> rw [g] at hc <;> cases hc
    · obtain ⟨q, hq, _⟩ := evaluates_some (fused := fused) (avg := p.avg) (by omega)
      rw [scan_short H (disc' := fun a => if a = 65536 then some 0xc17f else some 1) (e := 1) h hq (by simp; omega)] at hc
      have env : ScanEnv (fun a => if a = 65536 then some 0xc17f else some 1) bufsiz p 1 := ⟨hp, by simp; omega, by simp, by decide, hb⟩
      rcases C06_scan_defined_partial H env f sys with g | g | g <;> rw [g] at hc <;> cases hc

/-- All three cases are possible. -/
example : paramsSet 0 1 49 = some ⟨0, 1, 49⟩ ∧ paramsSet 0 1 48 = some ⟨0, 1, 48⟩ ∧ paramsSet 16384 9324557 9324558 = some ⟨16384, 9324557, 9324558⟩ ∧
    paramsSet 16384 65536 262144 = some ⟨16384, 65536, 262144⟩ := by decide

end Csn.Props
