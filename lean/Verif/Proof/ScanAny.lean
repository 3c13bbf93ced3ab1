import Verif.Proof.Chunker
/-
Scanning does not depend on how the data arrives, for any parameters and any discriminator (also those for which the scan
itself is undefined).
-/
namespace Csn.Proof
open Csn

/-- States in which `chunker_scan` can be called again. -/
structure Ready0 (p : Params) (d : Nat) (c : Chunker) : Prop where
  len : c.window.length = 48
  wait : c.windowFill < 48 ∨ shallBreak p d c = .ok false

theorem ready0_init (p : Params) (d : Nat) : Ready0 p d Chunker.init := ⟨by decide, Or.inl (by decide)⟩

theorem ready0_reset {p : Params} {d : Nat} {c : Chunker} (h : c.window.length = 48) : Ready0 p d c.reset :=
  ⟨h, Or.inl (by simp [Chunker.reset])⟩

/-- Count `k` bytes that were consumed before. -/
def later (k : Nat) : Res (Option Nat × Chunker) → Res (Option Nat × Chunker)
  | .ok (some n, c) => .ok (some (k + n), c)
  | r => r

theorem shallBreak_sha (p : Params) (d : Nat) (c : Chunker) (s : Bytes) : shallBreak p d { c with sha := s } = shallBreak p d c := rfl

theorem rollLoop_sha (p : Params) (d : Nat) : ∀ (b : Bytes) (c c' : Chunker) (idx n : Nat) (seen seen' : Bytes),
    { c with sha := c.sha ++ seen } = { c' with sha := c'.sha ++ seen' } →
    rollLoop p d c idx n seen b = rollLoop p d c' idx n seen' b
  | [], c, c', idx, n, seen, seen', h => by
    unfold rollLoop
    rw [h]
  | x :: b, c, c', idx, n, seen, seen', h => by
    obtain ⟨h1, h2, h3, h4, h5⟩ := c
    obtain ⟨g1, g2, g3, g4, g5⟩ := c'
    simp only [Chunker.mk.injEq] at h
    obtain ⟨rfl, rfl, rfl, rfl, he⟩ := h
    unfold rollLoop
    simp only [rollStep]
    have hb : shallBreak p d ⟨rol32 h1 1 ^^^ rol32 (buz (h4.getD idx 0)) 48 ^^^ buz x, h2 + 1, h3, h4.set idx x, h5⟩ =
        shallBreak p d ⟨rol32 h1 1 ^^^ rol32 (buz (h4.getD idx 0)) 48 ^^^ buz x, h2 + 1, h3, h4.set idx x, g5⟩ := rfl
    rw [hb]
    split
    · rfl
    · simp only [← List.append_assoc, he]
    · exact rollLoop_sha p d b _ _ _ _ _ _ (by simp only [← List.append_assoc, he])

theorem rollLoop_later (p : Params) (d : Nat) : ∀ (b : Bytes) (c : Chunker) (idx k n : Nat) (seen : Bytes),
    rollLoop p d c idx (k + n) seen b = later k (rollLoop p d c idx n seen b)
  | [], c, idx, k, n, seen => rfl
  | x :: b, c, idx, k, n, seen => by
    unfold rollLoop
    simp only
    split
    · rfl
    · rfl
    · rw [Nat.add_assoc]
      exact rollLoop_later p d b _ _ _ _ _

theorem rollLoop_append (p : Params) (d : Nat) : ∀ (a b : Bytes) (c : Chunker) (n : Nat) (seen : Bytes), shallBreak p d c = .ok false → c.window.length = 48 → 48 ≤ c.windowFill →
    rollLoop p d c (c.chunkSize % 48) n seen (a ++ b) =
      (match rollLoop p d c (c.chunkSize % 48) n seen a with
       | .ok (none, c') => rollLoop p d c' (c'.chunkSize % 48) (n + a.length) [] b
       | r => r) ∧
    (∀ c', rollLoop p d c (c.chunkSize % 48) n seen a = .ok (none, c') → shallBreak p d c' = .ok false ∧ c'.window.length = 48 ∧ 48 ≤ c'.windowFill) ∧
    ∀ k c', rollLoop p d c (c.chunkSize % 48) n seen a = .ok (some k, c') → c'.window.length = 48 ∧ n < k ∧ k ≤ n + a.length
  | [], b, c, n, seen, hb, hw, hf => by
    refine ⟨?_, ?_, ?_⟩
    · simp only [List.nil_append, rollLoop, List.length_nil, Nat.add_zero]
      exact rollLoop_sha p d b _ _ _ _ _ _ (by simp)
    · intro c' h
      simp only [rollLoop, Res.ok.injEq, Prod.mk.injEq, true_and] at h
      subst h
      exact ⟨hb, hw, hf⟩
    · intro k c' h
      simp [rollLoop] at h
  | x :: a, b, c, n, seen, hb, hw, hf => by
    have hs : (rollStep c (c.chunkSize % 48) x).chunkSize = c.chunkSize + 1 := rfl
    have hwl : (rollStep c (c.chunkSize % 48) x).window.length = 48 := by simp [rollStep, hw]
    have hwf : 48 ≤ (rollStep c (c.chunkSize % 48) x).windowFill := hf
    simp only [List.cons_append, rollLoop]
    cases hbr : shallBreak p d (rollStep c (c.chunkSize % 48) x) with
    | stop s => exact ⟨rfl, (by intro c' h; cases h), (by intro k c' h; cases h)⟩
    | ok t =>
      cases t with
      | true =>
        refine ⟨rfl, (by intro c' h; simp at h), ?_⟩
        intro k c' h
        simp only [Res.ok.injEq, Prod.mk.injEq, Option.some.injEq] at h
        obtain ⟨rfl, rfl⟩ := h
        exact ⟨hwl, Nat.lt_succ_self _, by simp⟩
      | false =>
        have ih := rollLoop_append p d a b (rollStep c (c.chunkSize % 48) x) (n + 1) (seen ++ [x]) hbr hwl hwf
        rw [hs] at ih
        simp only [nextIdx_mod]
        refine ⟨?_, ih.2.1, fun k c' h => ⟨(ih.2.2 k c' h).1, by have := (ih.2.2 k c' h).2; omega, by have := (ih.2.2 k c' h).2; simp; omega⟩⟩
        rw [ih.1]
        split
        · rename_i h
          rw [List.length_cons, show n + (a.length + 1) = n + 1 + a.length by omega]
        · rename_i h
          rfl

theorem scanTail_append (p : Params) (d : Nat) (a b : Bytes) (c : Chunker) (n : Nat) (hw : c.window.length = 48) (hf : 48 ≤ c.windowFill) :
    scanTail p d c n (a ++ b) =
      (match scanTail p d c n a with
       | .ok (none, c') => later (n + a.length) (chunkerScan p d c' b)
       | r => r) ∧
    (∀ c', scanTail p d c n a = .ok (none, c') → Ready0 p d c') ∧
    ∀ k c', scanTail p d c n a = .ok (some k, c') → c'.window.length = 48 ∧ n ≤ k ∧ k ≤ n + a.length := by
  unfold scanTail
  cases hb : shallBreak p d c with
  | stop s => exact ⟨rfl, (by intro c' h; cases h), (by intro k c' h; cases h)⟩
  | ok t =>
    cases t with
    | true =>
      refine ⟨rfl, (by intro c' h; simp at h), ?_⟩
      intro k c' h
      simp only [Res.ok.injEq, Prod.mk.injEq, Option.some.injEq] at h
      obtain ⟨rfl, rfl⟩ := h
      exact ⟨hw, Nat.le_refl _, by omega⟩
    | false =>
      simp only
      have h := rollLoop_append p d a b c n [] hb hw hf
      refine ⟨?_, fun c' e => ?_, fun k c' e => ⟨(h.2.2 k c' e).1, by have := (h.2.2 k c' e).2; omega, by have := (h.2.2 k c' e).2; omega⟩⟩
      · rw [h.1]
        cases he : rollLoop p d c (c.chunkSize % 48) n [] a with
        | stop s => rfl
        | ok r =>
          obtain ⟨o, c'⟩ := r
          cases o with
          | some k => rfl
          | none =>
            obtain ⟨h1, h2, h3⟩ := h.2.1 c' he
            simp only
            unfold chunkerScan
            rw [if_neg (by omega)]
            unfold scanTail
            rw [h1]
            simp only
            rw [← rollLoop_later, Nat.add_zero]
      · obtain ⟨h1, h2, h3⟩ := h.2.1 c' e
        exact ⟨h2, Or.inr h1⟩

theorem bufWrite_append (w : Bytes) (k : Nat) (a b : Bytes) (h : k + a.length ≤ w.length) : bufWrite (bufWrite w k a) (k + a.length) b = bufWrite w k (a ++ b) := by
  unfold bufWrite
  have hk : (w.take k).length = k := by simp; omega
  rw [List.take_append_of_le_length (by simp; omega), List.take_of_length_le (by simp; omega)]
  rw [List.drop_append, List.drop_eq_nil_of_le (by simp; omega), List.nil_append, List.drop_drop]
  simp only [List.length_append, hk, List.append_assoc]
  congr 4
  omega

theorem scanTail_later (p : Params) (d : Nat) (c : Chunker) (k n : Nat) (b : Bytes) : scanTail p d c (k + n) b = later k (scanTail p d c n b) := by
  unfold scanTail
  split
  · rfl
  · rfl
  · exact rollLoop_later p d b _ _ _ _ _

/-- chunker.c:145-205: scanning two pieces one after the other is scanning them together. -/
theorem chunkerScan_append (p : Params) (d : Nat) (a b : Bytes) (c : Chunker) (hr : Ready0 p d c) :
    chunkerScan p d c (a ++ b) =
      (match chunkerScan p d c a with
       | .ok (none, c') => later a.length (chunkerScan p d c' b)
       | r => r) ∧
    (∀ c', chunkerScan p d c a = .ok (none, c') → Ready0 p d c') ∧
    ∀ k c', chunkerScan p d c a = .ok (some k, c') → c'.window.length = 48 ∧ (a ≠ [] → 0 < k) ∧ k ≤ a.length := by
  by_cases hf : c.windowFill < 48
  · by_cases ha : c.windowFill + a.length < 48
    · -- the first piece does not fill the window
      have e1 : min a.length (48 - c.windowFill) = a.length := by omega
      have hA : chunkerScan p d c a = .ok (none, { c with
          window := bufWrite c.window c.windowFill a
          sha := c.sha ++ a
          windowFill := c.windowFill + a.length
          chunkSize := c.chunkSize + a.length }) := by
        unfold chunkerScan
        rw [if_pos hf]
        simp only [e1, List.take_length]
        rw [if_pos ha]
      rw [hA]
      refine ⟨?_, ?_, (by intro k c' h; simp at h)⟩
      · simp only
        unfold chunkerScan
        rw [if_pos hf]
        simp only [if_pos ha]
        have e2 : min (a ++ b).length (48 - c.windowFill) = a.length + min b.length (48 - (c.windowFill + a.length)) := by
          simp only [List.length_append]; omega
        have e3 : (a ++ b).take (a.length + min b.length (48 - (c.windowFill + a.length))) = a ++ b.take (min b.length (48 - (c.windowFill + a.length))) := by
          rw [List.take_append]; simp [List.take_of_length_le]
        have e4 : (a ++ b).drop (a.length + min b.length (48 - (c.windowFill + a.length))) = b.drop (min b.length (48 - (c.windowFill + a.length))) := by
          rw [List.drop_append]; simp [List.drop_eq_nil_of_le]
        simp only [e2, e3, e4]
        rw [← bufWrite_append _ _ _ _ (by rw [hr.len]; omega)]
        simp only [← List.append_assoc, ← Nat.add_assoc]
        by_cases h2 : c.windowFill + a.length + min b.length (48 - (c.windowFill + a.length)) < 48
        · rw [if_pos h2, if_pos h2]
          rfl
        · rw [if_neg h2, if_neg h2]
          exact scanTail_later _ _ _ _ _ _
      · intro c' h
        simp only [Res.ok.injEq, Prod.mk.injEq, true_and] at h
        subst h
        exact ⟨by simp only; rw [bufWrite_length _ _ _ (by rw [hr.len]; omega)]; exact hr.len, Or.inl ha⟩
    · have e1 : min a.length (48 - c.windowFill) = 48 - c.windowFill := by omega
      have e2 : min (a ++ b).length (48 - c.windowFill) = 48 - c.windowFill := by simp only [List.length_append]; omega
      have e3 : (a ++ b).take (48 - c.windowFill) = a.take (48 - c.windowFill) := List.take_append_of_le_length (by omega)
      have e4 : (a ++ b).drop (48 - c.windowFill) = a.drop (48 - c.windowFill) ++ b := List.drop_append_of_le_length (by omega)
      unfold chunkerScan
      rw [if_pos hf]
      simp only [e1, e2, e3, e4]
      rw [if_neg (by omega), if_pos hf, if_neg (by omega)]
      have h := scanTail_append p d (a.drop (48 - c.windowFill)) b { c with
          h := c.h ^^^ initHash (bufWrite c.window c.windowFill (a.take (48 - c.windowFill)))
          window := bufWrite c.window c.windowFill (a.take (48 - c.windowFill))
          sha := c.sha ++ a.take (48 - c.windowFill)
          windowFill := c.windowFill + (48 - c.windowFill)
          chunkSize := c.chunkSize + (48 - c.windowFill) } (48 - c.windowFill)
        (by simp only; rw [bufWrite_length _ _ _ (by rw [hr.len]; simp; omega)]; exact hr.len) (by simp only; omega)
      refine ⟨?_, h.2.1, fun k c' e => ⟨(h.2.2 k c' e).1, fun _ => by have := (h.2.2 k c' e).2; omega, by have := (h.2.2 k c' e).2; simp at this; omega⟩⟩
      rw [h.1]
      have e5 : 48 - c.windowFill + (a.drop (48 - c.windowFill)).length = a.length := by simp; omega
      rw [e5]
      rfl
  · have hb : shallBreak p d c = .ok false := hr.wait.resolve_left hf
    have h := scanTail_append p d a b c 0 hr.len (by omega)
    have e : chunkerScan p d c = scanTail p d c 0 := by
      funext x
      unfold chunkerScan
      rw [if_neg hf]
    rw [e]
    refine ⟨?_, h.2.1, fun k c' e => ⟨(h.2.2 k c' e).1, fun _ => ?_, by have := (h.2.2 k c' e).2; omega⟩⟩
    · rw [h.1, Nat.zero_add]
    · unfold scanTail at e
      rw [hb] at e
      simp only at e
      exact (rollLoop_append p d a [] c 0 [] hb hr.len (by omega)).2.2 k c' e |>.2.1

/-- What becomes of the rest of the data. -/
def scanAll {σ : Type} (H : Bytes → Id) (p : Params) (d : Nat) (cb : σ → Seg → CbRes σ) (c : Chunker) (offset last : Nat) (s : σ) (buf : Bytes) : ScanRes × σ :=
  match scanBuf H p d cb buf.length c offset last s buf with
  | (.stop y, _, _, _, s') => (.stop y, s')
  | (.fail, _, _, _, s') => (.fail, s')
  | (.ok, c', o, l, s') =>
    if o ≠ l then
      match cb s' ⟨l, (o - l) % 2 ^ 32, H c'.sha⟩ with
      | .stop y s' => (.stop y, s')
      | .fail s' => (.fail, s')
      | .ok s' => (.ok, s')
    else (.ok, s')

/-- More fuel changes nothing. -/
theorem scanBuf_fuel {σ : Type} (H : Bytes → Id) (p : Params) (d : Nat) (cb : σ → Seg → CbRes σ) : ∀ (m n : Nat) (c : Chunker) (offset last : Nat) (s : σ) (buf : Bytes),
    Ready0 p d c → buf.length ≤ m → buf.length ≤ n →
    scanBuf H p d cb m c offset last s buf = scanBuf H p d cb n c offset last s buf
  | 0, n, c, offset, last, s, buf, hr, hm, hn => by
    unfold scanBuf
    rw [if_pos (by omega), if_pos (by omega)]
  | m + 1, n, c, offset, last, s, buf, hr, hm, hn => by
    unfold scanBuf
    by_cases hb : buf.length = 0
    · rw [if_pos hb, if_pos hb]
    · rw [if_neg hb, if_neg hb]
      obtain ⟨n, rfl⟩ : ∃ k, n = k + 1 := ⟨n - 1, by omega⟩
      simp only
      have h := chunkerScan_append p d buf [] c hr
      cases hc : chunkerScan p d c buf with
      | stop x => rfl
      | ok r =>
        obtain ⟨o, c'⟩ := r
        cases o with
        | none => rfl
        | some k =>
          simp only
          obtain ⟨h1, h2, h3⟩ := h.2.2 k c' hc
          have hk := h2 (by intro e; simp [e] at hb)
          split
          · rfl
          · rfl
          · exact scanBuf_fuel H p d cb m n _ _ _ _ _ (ready0_reset h1) (by simp; omega) (by simp; omega)

/-- Scanning two pieces one after the other is scanning them together. -/
theorem scanAll_append {σ : Type} (H : Bytes → Id) (p : Params) (d : Nat) (cb : σ → Seg → CbRes σ) (b : Bytes) : ∀ (n : Nat) (a : Bytes) (c : Chunker) (offset last : Nat) (s : σ),
    a.length ≤ n → Ready0 p d c →
    (match scanBuf H p d cb n c offset last s a with
     | (.ok, c', o, l, s') => Ready0 p d c' ∧ scanAll H p d cb c offset last s (a ++ b) = scanAll H p d cb c' o l s' b
     | (.fail, _, _, _, s') => scanAll H p d cb c offset last s (a ++ b) = (.fail, s')
     | (.stop y, _, _, _, s') => scanAll H p d cb c offset last s (a ++ b) = (.stop y, s'))
  | 0, a, c, offset, last, s, hn, hr => by
    have : a = [] := List.length_eq_zero_iff.1 (by omega)
    subst this
    unfold scanBuf
    exact ⟨hr, rfl⟩
  | n + 1, a, c, offset, last, s, hn, hr => by
    by_cases ha : a.length = 0
    · have : a = [] := List.length_eq_zero_iff.1 ha
      subst this
      unfold scanBuf
      exact ⟨hr, rfl⟩
    · have hne : a ≠ [] := by intro e; simp [e] at ha
      have h := chunkerScan_append p d a b c hr
      unfold scanBuf
      rw [if_neg ha]
      simp only
      have hall : ∀ R, scanBuf H p d cb (a ++ b).length c offset last s (a ++ b) = R → scanAll H p d cb c offset last s (a ++ b) =
          (match R with
            | (.stop y, _, _, _, s') => (.stop y, s')
            | (.fail, _, _, _, s') => (.fail, s')
            | (.ok, c', o, l, s') =>
              if o ≠ l then
                match cb s' ⟨l, (o - l) % 2 ^ 32, H c'.sha⟩ with
                | .stop y s' => (.stop y, s')
                | .fail s' => (.fail, s')
                | .ok s' => (.ok, s')
              else (.ok, s')) := by
        intro R e; unfold scanAll; rw [e]
      obtain ⟨m, hm⟩ : ∃ m, (a ++ b).length = m + 1 := ⟨(a ++ b).length - 1, by simp; omega⟩
      have hm' : a.length + b.length = m + 1 := by simpa using hm
      cases hc : chunkerScan p d c a with
      | stop x =>
        refine hall _ (?_ : _ = ((.stop x, c, offset, last, s) : ScanRes × Chunker × Nat × Nat × σ))
        rw [hm]
        unfold scanBuf
        rw [if_neg (by omega)]
        simp only [h.1, hc]
      | ok r =>
        obtain ⟨o, c'⟩ := r
        cases o with
        | some k =>
          obtain ⟨h1, h2, h3⟩ := h.2.2 k c' hc
          have hk := h2 hne
          simp only
          cases hcb : cb s ⟨last, (offset + k - last) % 2 ^ 32, H c'.sha⟩ with
          | stop y s' =>
            refine hall _ (?_ : _ = ((.stop y, c', offset + k, last, s') : ScanRes × Chunker × Nat × Nat × σ))
            rw [hm]
            unfold scanBuf
            rw [if_neg (by omega)]
            simp only [h.1, hc, hcb]
          | fail s' =>
            refine hall _ (?_ : _ = ((.fail, c', offset + k, last, s') : ScanRes × Chunker × Nat × Nat × σ))
            rw [hm]
            unfold scanBuf
            rw [if_neg (by omega)]
            simp only [h.1, hc, hcb]
          | ok s' =>
            have ih := scanAll_append H p d cb b n (a.drop k) c'.reset (offset + k) (offset + k) s' (by simp; omega) (ready0_reset h1)
            have estep : scanAll H p d cb c offset last s (a ++ b) = scanAll H p d cb c'.reset (offset + k) (offset + k) s' (a.drop k ++ b) := by
              rw [← List.drop_append_of_le_length h3]
              unfold scanAll
              rw [hm]
              conv => lhs; unfold scanBuf
              rw [if_neg (by omega)]
              simp only [h.1, hc, hcb]
              rw [scanBuf_fuel H p d cb m ((a ++ b).drop k).length _ _ _ _ _ (ready0_reset h1) (by simp; omega) (Nat.le_refl _)]
            rw [estep]
            exact ih
        | none =>
          have hr' := h.2.1 c' hc
          refine ⟨hr', ?_⟩
          by_cases hb0 : b.length = 0
          · have : b = [] := List.length_eq_zero_iff.1 hb0
            subst this
            rw [List.append_nil]
            obtain ⟨m, hm⟩ : ∃ m, a.length = m + 1 := ⟨a.length - 1, by omega⟩
            unfold scanAll
            rw [hm]
            unfold scanBuf
            rw [if_neg ha]
            simp only [hc, hm, List.length_nil, if_true]
          · obtain ⟨mb, hmb⟩ : ∃ m, b.length = m + 1 := ⟨b.length - 1, by omega⟩
            unfold scanAll
            rw [hm, hmb]
            unfold scanBuf
            rw [if_neg (by omega), if_neg (by omega)]
            simp only [h.1, hc]
            have hcs := chunkerScan_append p d b [] c' hr'
            cases hcb' : chunkerScan p d c' b with
            | stop x => rfl
            | ok r =>
              obtain ⟨o, c2⟩ := r
              cases o with
              | none =>
                simp only [later]
                rw [List.length_append, Nat.add_assoc]
              | some k =>
                obtain ⟨g1, g2, g3⟩ := hcs.2.2 k c2 hcb'
                have hk := g2 (by intro e; simp [e] at hb0)
                simp only [later]
                rw [← Nat.add_assoc]
                cases hcb2 : cb s ⟨last, (offset + a.length + k - last) % 2 ^ 32, H c2.sha⟩ with
                | stop y s' => rfl
                | fail s' => rfl
                | ok s' =>
                  simp only
                  have e : (a ++ b).drop (a.length + k) = b.drop k := by rw [List.drop_append]; simp [List.drop_eq_nil_of_le]
                  rw [e, scanBuf_fuel H p d cb m mb _ _ _ _ _ (ready0_reset g1) (by simp; omega) (by simp; omega)]

/-- chunker.c:235-280: unless the process is killed, a scan whose system calls neither fail nor report an early end of file
gives the result of scanning the rest of the file at once. -/
theorem scanLoop_any {σ : Type} (H : Bytes → Id) (p : Params) (d bufsiz : Nat) (hbuf : 0 < bufsiz) (cb : σ → Seg → CbRes σ) (f : Bytes) :
    ∀ (sys : List Sys) (c : Chunker) (pos offset last : Nat) (s : σ), Sys.err ∉ sys → Sys.zero ∉ sys → Ready0 p d c →
    ∃ res s' r, scanLoop H p d bufsiz cb f c pos offset last s sys = (res, s', r) ∧ r <:+ sys ∧
      (res = .stop .killed ∨ (res, s') = scanAll H p d cb c offset last s (f.drop pos))
  | [], c, pos, offset, last, s, he, hz, hr => ⟨_, _, _, rfl, List.suffix_refl _, Or.inl rfl⟩
  | x :: sys, c, pos, offset, last, s, he, hz, hr => by
    have hsuf : sys <:+ x :: sys := List.suffix_cons _ _
    have he' : Sys.err ∉ sys := fun h => he (List.mem_cons_of_mem _ h)
    have hz' : Sys.zero ∉ sys := fun h => hz (List.mem_cons_of_mem _ h)
    cases x with
    | err => exact absurd List.mem_cons_self he
    | zero => exact absurd List.mem_cons_self hz
    | eintr =>
      obtain ⟨res, s', r, h1, h2, h3⟩ := scanLoop_any H p d bufsiz hbuf cb f sys c pos offset last s he' hz' hr
      exact ⟨res, s', r, by unfold scanLoop; exact h1, h2.trans hsuf, h3⟩
    | some k =>
      unfold scanLoop
      simp only
      by_cases hg : ((f.drop pos).take (min (k + 1) bufsiz)).isEmpty = true
      · rw [if_pos hg]
        have hnil : f.drop pos = [] := by
          have := congrArg List.length (List.isEmpty_iff.1 hg)
          simp only [List.length_take, List.length_drop, List.length_nil] at this
          exact List.drop_eq_nil_of_le (by omega)
        rw [hnil]
        have hAll : scanAll H p d cb c offset last s [] = (if offset ≠ last then
              match cb s ⟨last, (offset - last) % 2 ^ 32, H c.sha⟩ with
              | .stop y s' => (.stop y, s')
              | .fail s' => (.fail, s')
              | .ok s' => (.ok, s')
            else (.ok, s)) := by
          unfold scanAll scanBuf
          rfl
        rw [hAll]
        by_cases ho : offset ≠ last
        · rw [if_pos ho, if_pos ho]
          cases cb s ⟨last, (offset - last) % 2 ^ 32, H c.sha⟩ with
          | stop y s' => exact ⟨_, _, _, rfl, hsuf, Or.inr rfl⟩
          | fail s' => exact ⟨_, _, _, rfl, hsuf, Or.inr rfl⟩
          | ok s' => exact ⟨_, _, _, rfl, hsuf, Or.inr rfl⟩
        · rw [if_neg ho, if_neg ho]
          exact ⟨_, _, _, rfl, hsuf, Or.inr rfl⟩
      · rw [if_neg hg]
        generalize hgot : (f.drop pos).take (min (k + 1) bufsiz) = got
        have hsplit : f.drop pos = got ++ f.drop (pos + got.length) := by
          rw [← List.drop_drop, ← hgot]
          conv => lhs; rw [← List.take_append_drop (min (k + 1) bufsiz) (f.drop pos)]
          congr 1
          by_cases hl : min (k + 1) bufsiz ≤ (f.drop pos).length
          · rw [List.length_take, Nat.min_eq_left hl]
          · rw [List.drop_eq_nil_of_le (by omega), List.drop_eq_nil_of_le]
            rw [List.length_take]; omega
        have h := scanAll_append H p d cb (f.drop (pos + got.length)) got.length got c offset last s (Nat.le_refl _) hr
        rw [← hsplit] at h
        generalize scanBuf H p d cb got.length c offset last s got = R at h
        obtain ⟨res, c', o, l, s'⟩ := R
        cases res with
        | stop y => exact ⟨_, _, _, rfl, hsuf, Or.inr h.symm⟩
        | fail => exact ⟨_, _, _, rfl, hsuf, Or.inr h.symm⟩
        | ok =>
          obtain ⟨res, s2, r, h1, h2, h3⟩ := scanLoop_any H p d bufsiz hbuf cb f sys c' (pos + got.length) o l s' he' hz' h.1
          refine ⟨res, s2, r, h1, h2.trans hsuf, ?_⟩
          rw [h.2]
          exact h3

/-- chunker.c:215-281 on a whole file. -/
theorem scanFd_any {σ : Type} (H : Bytes → Id) (disc : Nat → Option Nat) (bufsiz : Nat) (hbuf : 0 < bufsiz) (p : Params) (cb : σ → Seg → CbRes σ) (f : Bytes) (s : σ) :
    ∃ R : ScanRes × σ, ∀ sys : List Sys, Sys.err ∉ sys → Sys.zero ∉ sys →
      ∃ res s' r, scanFd H disc bufsiz p cb f s sys = (res, s', r) ∧ r <:+ sys ∧ (res = .stop .killed ∨ (res, s') = R) := by
  cases hd : disc p.avg with
  | none =>
    refine ⟨(.stop .ub, s), fun sys _ _ => ⟨.stop .ub, s, sys, ?_, List.suffix_refl _, Or.inr rfl⟩⟩
    unfold scanFd
    rw [hd]
  | some d =>
    refine ⟨scanAll H p d cb Chunker.init 0 0 s f, fun sys he hz => ?_⟩
    unfold scanFd
    rw [hd]
    cases sys with
    | nil => exact ⟨_, _, _, rfl, List.suffix_refl _, Or.inl rfl⟩
    | cons x sys =>
      obtain ⟨res, s', r, h1, h2, h3⟩ := scanLoop_any H p d bufsiz hbuf cb f sys Chunker.init 0 0 0 s (fun h => he (List.mem_cons_of_mem _ h))
        (fun h => hz (List.mem_cons_of_mem _ h)) (ready0_init p d)
      refine ⟨res, s', r, ?_, h2.trans (List.suffix_cons _ _), h3⟩
      cases x with
      | err => exact absurd List.mem_cons_self he
      | zero => exact h1
      | eintr => exact h1
      | some k => exact h1

end Csn.Proof
