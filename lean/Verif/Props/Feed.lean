import Verif.Spec.Feed
import Verif.Proof.Chunking
/-
C78: the chunker's interface.
-/
namespace Csn.Props
open Csn Csn.Proof Csn.Spec

/-- The calls of a caller of chunker.h, in order, and what they return. -/
def feed (H : Bytes → Id) (p : Params) (d : Nat) : Chunker → List Act → Res (List (Act × Answer) × Chunker)
  | c, [] => .ok ([], c)
  | c, .scan buf :: r =>
    match chunkerScan p d c buf with
    | .stop s => .stop s
    | .ok (o, c') =>
      match feed H p d c' r with
      | .stop s => .stop s
      | .ok (xs, c2) => .ok ((.scan buf, match o with | some n => .boundary n | none => .noBoundary) :: xs, c2)
  | c, .reset :: r =>
    match feed H p d c.reset r with
    | .stop s => .stop s
    | .ok (xs, c2) => .ok ((.reset, .done) :: xs, c2)
  | c, .take :: r =>
    match feed H p d c.reset r with
    | .stop s => .stop s
    | .ok (xs, c2) => .ok ((.take, .id (H c.sha)) :: xs, c2)

theorem shallBreak_congr {p : Params} {d : Nat} {a b : Chunker} (h1 : a.h = b.h) (h2 : a.chunkSize = b.chunkSize) :
    shallBreak p d a = shallBreak p d b := by
  unfold shallBreak; rw [h1, h2]

/-- A chunker that has reported a boundary. -/
def Stuck (p : Params) (d : Nat) (c : Chunker) : Prop := c.windowFill = 48 ∧ shallBreak p d c = .ok true

theorem rollLoop_stuck {p : Params} {d : Nat} (buf : Bytes) : ∀ (c : Chunker) (idx consumed : Nat) (seen : Bytes) (n : Nat) (c' : Chunker),
    c.windowFill = 48 → rollLoop p d c idx consumed seen buf = .ok (some n, c') → Stuck p d c' := by
  induction buf with
  | nil => intro c idx consumed seen n c' _ h; simp [rollLoop] at h
  | cons b r ih =>
    intro c idx consumed seen n c' hw h
    rw [rollLoop] at h
    cases hb : shallBreak p d (rollStep c idx b) with
    | stop s => rw [hb] at h; simp at h
    | ok t =>
      rw [hb] at h
      cases t with
      | true =>
        simp only [Res.ok.injEq, Prod.mk.injEq, Option.some.injEq] at h
        obtain ⟨_, rfl⟩ := h
        exact ⟨hw, by rw [← hb]; exact shallBreak_congr rfl rfl⟩
      | false => exact ih _ _ _ _ _ _ (by exact hw) h

theorem chunkerScan_stuck {p : Params} {d : Nat} {c : Chunker} {buf : Bytes} {n : Nat} {c' : Chunker} (hw : c.windowFill ≤ 48)
    (h : chunkerScan p d c buf = .ok (some n, c')) : Stuck p d c' := by
  have tail : ∀ (c : Chunker) (k : Nat) (b : Bytes), c.windowFill = 48 → scanTail p d c k b = .ok (some n, c') → Stuck p d c' := by
    intro c k b hw h
    unfold scanTail at h
    cases hb : shallBreak p d c with
    | stop s => rw [hb] at h; simp at h
    | ok t =>
      rw [hb] at h
      cases t with
      | true =>
        simp only [Res.ok.injEq, Prod.mk.injEq] at h
        obtain ⟨_, rfl⟩ := h
        exact ⟨hw, hb⟩
      | false => exact rollLoop_stuck b _ _ _ _ _ _ hw h
  unfold chunkerScan at h
  split at h
  · rename_i h1
    dsimp only at h
    split at h
    · simp at h
    · rename_i h2
      exact tail _ _ _ (by dsimp only; omega) h
  · exact tail _ _ _ (by omega) h

theorem stuck_scan {p : Params} {d : Nat} {c : Chunker} (h : Stuck p d c) (buf : Bytes) : chunkerScan p d c buf = .ok (some 0, c) := by
  unfold chunkerScan
  rw [if_neg (by rw [h.1]; omega), scanTail, h.2]

/-- The state of a chunker that was given `q` since its last reset. -/
def Now (p : Params) (d : Nat) (c : Chunker) (q : Bytes) : Prop :=
  (Rep c q ∧ NoCut p d q) ∨
  (Stuck p d c ∧ c.sha = q ∧ c.window.length = 48 ∧ FirstCut p.min p.max (deff p d) q q.length)

theorem rep_fill {c : Chunker} {q : Bytes} (h : Rep c q) : c.windowFill ≤ 48 := by
  rcases h.st with ⟨h1, _, h3, _⟩ | h
  · omega
  · rw [h.fill]; omega

theorem Now.wlen {p : Params} {d : Nat} {c : Chunker} {q : Bytes} (h : Now p d c q) : c.window.length = 48 := by
  rcases h with ⟨h, _⟩ | ⟨_, _, h, _⟩
  · exact h.wlen
  · exact h

theorem Now.sha {p : Params} {d : Nat} {c : Chunker} {q : Bytes} (h : Now p d c q) : c.sha = q := by
  rcases h with ⟨h, _⟩ | ⟨_, h, _, _⟩
  · exact h.sha
  · exact h

theorem now_reset {p : Params} {d : Nat} {c : Chunker} (h : c.window.length = 48) : Now p d c.reset [] :=
  .inl ⟨rep_reset c h, noCut_nil p d⟩

theorem now_init (p : Params) (d : Nat) : Now p d Chunker.init [] := .inl ⟨rep_init, noCut_nil p d⟩

theorem firstCut_prefix {mi ma d : Nat} {q x : Bytes} {n : Nat} (hn : n ≤ q.length) (h : FirstCut mi ma d (q ++ x) n) : FirstCut mi ma d q n :=
  ⟨(cut_append hn).1 h.1, fun m hm hc => h.2 m hm ((cut_append (by omega)).2 hc)⟩

theorem now_scan {p : Params} {d : Nat} (hd : 0 < deff p d) {c : Chunker} {q : Bytes} (h : Now p d c q) (buf : Bytes) :
    (∃ j c', chunkerScan p d c buf = .ok (some j, c') ∧ j ≤ buf.length ∧ FirstCut p.min p.max (deff p d) (q ++ buf) (q.length + j) ∧
      Now p d c' (q ++ buf.take j)) ∨
    (∃ c', chunkerScan p d c buf = .ok (none, c') ∧ NoCut p d (q ++ buf) ∧ Now p d c' (q ++ buf)) := by
  rcases h with ⟨hr, hn⟩ | ⟨hs, hsha, hwl, hf⟩
  · obtain ⟨⟨o, c'⟩, h1, h2⟩ := chunkerScan_spec hd c q buf hr hn
    cases o with
    | none => exact .inr ⟨c', h1, h2.2, .inl h2⟩
    | some n =>
      obtain ⟨j, hj, hle, hcut, hs, hw⟩ := h2
      have : n = j := by omega
      subst this
      refine .inl ⟨n, c', h1, hle, hcut, .inr ⟨chunkerScan_stuck (rep_fill hr) h1, hs, hw, ?_⟩⟩
      have e : q ++ buf = (q ++ buf.take n) ++ buf.drop n := by simp
      have el : (q ++ buf.take n).length = q.length + n := by simp; omega
      rw [e] at hcut
      rw [el]
      exact firstCut_prefix (by omega) hcut
  · refine .inl ⟨0, c, stuck_scan hs buf, by omega, ?_, ?_⟩
    · exact ⟨(cut_append (by omega)).2 hf.1, fun m hm hc => hf.2 m (by omega) ((cut_append (by omega)).1 hc)⟩
    · simpa using (show Now p d c q from .inr ⟨hs, hsha, hwl, hf⟩)

theorem feed_now (H : Bytes → Id) {p : Params} {d : Nat} (hd : 0 < deff p d) : ∀ (acts : List Act) (c : Chunker) (q : Bytes), Now p d c q →
    ∃ xs c', feed H p d c acts = .ok (xs, c') ∧ xs.map (·.1) = acts ∧ Fed p.min p.max (deff p d) H q xs ∧ c'.window.length = 48 := by
  intro acts
  induction acts with
  | nil => intro c q h; exact ⟨[], c, rfl, rfl, .nil q, h.wlen⟩
  | cons a r ih =>
    intro c q h
    cases a with
    | scan buf =>
      rcases now_scan hd h buf with ⟨j, c', e, hj, hf, hn⟩ | ⟨c', e, hf, hn⟩
      · obtain ⟨xs, c2, h1, h2, h3, h4⟩ := ih c' _ hn
        exact ⟨(.scan buf, .boundary j) :: xs, c2, by simp [feed, e, h1], by simp [h2], .hit q buf j xs hj hf h3, h4⟩
      · obtain ⟨xs, c2, h1, h2, h3, h4⟩ := ih c' _ hn
        exact ⟨(.scan buf, .noBoundary) :: xs, c2, by simp [feed, e, h1], by simp [h2], .miss q buf xs hf h3, h4⟩
    | reset =>
      obtain ⟨xs, c2, h1, h2, h3, h4⟩ := ih c.reset [] (now_reset h.wlen)
      exact ⟨(.reset, .done) :: xs, c2, by simp [feed, h1], by simp [h2], .reset q xs h3, h4⟩
    | take =>
      obtain ⟨xs, c2, h1, h2, h3, h4⟩ := ih c.reset [] (now_reset h.wlen)
      exact ⟨(.take, .id (H q)) :: xs, c2, by simp [feed, h1, h.sha], by simp [h2], .take q xs h3, h4⟩

/-- C78: a freshly initialised chunker answers every sequence of calls as the specification says: each scan either reports the
first position that satisfies the cut rule in the data given since the last reset (and consumes the buffer up to it), or there
is no such position and it consumes all of the buffer; the ID is the digest of exactly the consumed data. -/
theorem C78_answers (H : Bytes → Id) {p : Params} {d : Nat} (hd : 0 < d) (acts : List Act) :
    ∃ xs c', feed H p d Chunker.init acts = .ok (xs, c') ∧ xs.map (·.1) = acts ∧
      Fed p.min p.max (if p.avg = 65536 then 0xc17f else d) H [] xs := by
  have hd' : 0 < deff p d := by unfold deff; split <;> omega
  obtain ⟨xs, c', h1, h2, h3, _⟩ := feed_now H hd' acts Chunker.init [] (now_init p d)
  exact ⟨xs, c', h1, h2, h3⟩

/-- C78: the specification leaves no choice. -/
theorem C78_determined {mi ma d : Nat} {H : Bytes → Bytes} {q : Bytes} {xs ys : List (Act × Answer)} (hx : Fed mi ma d H q xs)
    (hy : Fed mi ma d H q ys) (h : xs.map (·.1) = ys.map (·.1)) : xs = ys := by
  induction hx generalizing ys with
  | nil q => cases ys with
    | nil => rfl
    | cons y ys => simp at h
  | hit q buf j xs hj hf _ ih =>
    cases hy with
    | nil => simp at h
    | hit _ buf' j' ys hj' hf' hy =>
      simp only [List.map_cons, List.cons.injEq, Act.scan.injEq] at h
      obtain ⟨rfl, h⟩ := h
      have := firstCut_unique hf hf'
      have : j = j' := by omega
      subst this
      rw [ih hy h]
    | miss _ buf' ys hf' hy =>
      simp only [List.map_cons, List.cons.injEq, Act.scan.injEq] at h
      obtain ⟨rfl, _⟩ := h
      exact absurd hf.1 (hf' _)
    | reset _ ys hy => simp at h
    | take _ ys hy => simp at h
  | miss q buf xs hf _ ih =>
    cases hy with
    | nil => simp at h
    | hit _ buf' j' ys hj' hf' hy =>
      simp only [List.map_cons, List.cons.injEq, Act.scan.injEq] at h
      obtain ⟨rfl, _⟩ := h
      exact absurd hf'.1 (hf _)
    | miss _ buf' ys hf' hy =>
      simp only [List.map_cons, List.cons.injEq, Act.scan.injEq] at h
      obtain ⟨rfl, h⟩ := h
      rw [ih hy h]
    | reset _ ys hy => simp at h
    | take _ ys hy => simp at h
  | reset q xs _ ih =>
    cases hy with
    | nil => simp at h
    | hit _ buf' j' ys hj' hf' hy => simp at h
    | miss _ buf' ys hf' hy => simp at h
    | reset _ ys hy =>
      simp only [List.map_cons, List.cons.injEq, true_and] at h
      rw [ih hy h]
    | take _ ys hy => simp at h
  | take q xs _ ih =>
    cases hy with
    | nil => simp at h
    | hit _ buf' j' ys hj' hf' hy => simp at h
    | miss _ buf' ys hf' hy => simp at h
    | reset _ ys hy => simp at h
    | take _ ys hy =>
      simp only [List.map_cons, List.cons.injEq, true_and] at h
      rw [ih hy h]

/-- C78: after a boundary nothing is consumed until the chunker is reset; after a reset the answers are those of a new chunker,
whatever was fed before, and data is consumed again. -/
theorem C78_stuck_until_reset (H : Bytes → Id) {p : Params} {d : Nat} (hd : 0 < d) (pre : List Act) (xs : List (Act × Answer)) (c : Chunker)
    (hpre : feed H p d Chunker.init pre = .ok (xs, c)) :
    (∀ buf n c', chunkerScan p d c buf = .ok (some n, c') → ∀ more, chunkerScan p d c' more = .ok (some 0, c')) ∧
    (∀ acts, ∃ ys c1 c2, feed H p d c.reset acts = .ok (ys, c1) ∧ feed H p d Chunker.init acts = .ok (ys, c2)) ∧
    (∀ buf c', chunkerScan p d c.reset buf ≠ .ok (some 0, c')) := by
  have hd' : 0 < deff p d := by unfold deff; split <;> omega
  have hw : c.window.length = 48 := by
    obtain ⟨xs', c', h1, _, _, h4⟩ := feed_now H hd' pre Chunker.init [] (now_init p d)
    rw [hpre] at h1
    simp only [Res.ok.injEq, Prod.mk.injEq] at h1
    obtain ⟨_, rfl⟩ := h1
    exact h4
  have hnow : ∀ (acts : List Act) (c0 c : Chunker) (q : Bytes) (xs : List (Act × Answer)), Now p d c0 q → feed H p d c0 acts = .ok (xs, c) →
      c.windowFill ≤ 48 := by
    intro acts
    induction acts with
    | nil =>
      intro c0 c q xs h e
      simp only [feed, Res.ok.injEq, Prod.mk.injEq] at e
      obtain ⟨_, rfl⟩ := e
      rcases h with ⟨h, _⟩ | ⟨h, _⟩
      · exact rep_fill h
      · rw [h.1]; omega
    | cons a r ih =>
      intro c0 c q xs h e
      cases a with
      | scan buf =>
        rcases now_scan hd' h buf with ⟨j, c', e1, _, _, hn⟩ | ⟨c', e1, _, hn⟩ <;>
        · simp only [feed, e1] at e
          cases hf : feed H p d c' r with
          | stop s => rw [hf] at e; simp at e
          | ok z =>
            obtain ⟨zs, c2⟩ := z
            rw [hf] at e
            simp only [Res.ok.injEq, Prod.mk.injEq] at e
            obtain ⟨_, rfl⟩ := e
            exact ih c' c2 _ zs hn hf
      | reset =>
        simp only [feed] at e
        cases hf : feed H p d c0.reset r with
        | stop s => rw [hf] at e; simp at e
        | ok z =>
          obtain ⟨zs, c2⟩ := z
          rw [hf] at e
          simp only [Res.ok.injEq, Prod.mk.injEq] at e
          obtain ⟨_, rfl⟩ := e
          exact ih _ c2 _ zs (now_reset h.wlen) hf
      | take =>
        simp only [feed] at e
        cases hf : feed H p d c0.reset r with
        | stop s => rw [hf] at e; simp at e
        | ok z =>
          obtain ⟨zs, c2⟩ := z
          rw [hf] at e
          simp only [Res.ok.injEq, Prod.mk.injEq] at e
          obtain ⟨_, rfl⟩ := e
          exact ih _ c2 _ zs (now_reset h.wlen) hf
  refine ⟨?_, ?_, ?_⟩
  · intro buf n c' h more
    exact stuck_scan (chunkerScan_stuck (hnow pre _ _ [] xs (now_init p d) hpre) h) more
  · intro acts
    obtain ⟨ys, c1, h1, h2, h3, _⟩ := feed_now H hd' acts c.reset [] (now_reset hw)
    obtain ⟨zs, c2, g1, g2, g3, _⟩ := feed_now H hd' acts Chunker.init [] (now_init p d)
    have := C78_determined h3 g3 (by rw [h2, g2])
    subst this
    exact ⟨ys, c1, c2, h1, g1⟩
  · intro buf c' h
    rcases now_scan hd' (now_reset (p := p) (d := d) hw) buf with ⟨j, c2, e1, _, hf, _⟩ | ⟨c2, e1, _, _⟩
    · rw [h] at e1
      simp only [Res.ok.injEq, Prod.mk.injEq, Option.some.injEq] at e1
      obtain ⟨rfl, _⟩ := e1
      have := hf.1.1
      simp at this
    · rw [h] at e1
      simp at e1

/-- Scanning pieces one after the other until a boundary is found: its position in the whole. -/
def scanPieces (p : Params) (d : Nat) : Chunker → List Bytes → Res (Option Nat × Chunker)
  | c, [] => .ok (none, c)
  | c, b :: r =>
    match chunkerScan p d c b with
    | .stop s => .stop s
    | .ok (some n, c') => .ok (some n, c')
    | .ok (none, c') =>
      match scanPieces p d c' r with
      | .stop s => .stop s
      | .ok (o, c2) => .ok (o.map (b.length + ·), c2)

theorem scanPieces_now {p : Params} {d : Nat} (hd : 0 < deff p d) : ∀ (pieces : List Bytes) (c : Chunker) (q : Bytes), Now p d c q → NoCut p d q →
    (∃ j c', scanPieces p d c pieces = .ok (some j, c') ∧ j ≤ pieces.flatten.length ∧
      FirstCut p.min p.max (deff p d) (q ++ pieces.flatten) (q.length + j) ∧ c'.sha = q ++ pieces.flatten.take j) ∨
    (∃ c', scanPieces p d c pieces = .ok (none, c') ∧ NoCut p d (q ++ pieces.flatten) ∧ c'.sha = q ++ pieces.flatten) := by
  intro pieces
  induction pieces with
  | nil => intro c q h hn; exact .inr ⟨c, rfl, by simpa using hn, by simpa using h.sha⟩
  | cons b r ih =>
    intro c q h hn
    rcases now_scan hd h b with ⟨j, c', e, hj, hf, h'⟩ | ⟨c', e, hf, h'⟩
    · refine .inl ⟨j, c', by simp [scanPieces, e], by simp; omega, ?_, ?_⟩
      · rw [List.flatten_cons, ← List.append_assoc]
        exact ⟨(cut_append (by simp; omega)).2 hf.1, fun m hm hc => hf.2 m hm ((cut_append (by simp; omega)).1 hc)⟩
      · rw [h'.sha, List.flatten_cons, List.take_append_of_le_length hj]
    · rcases ih c' _ h' hf with ⟨j, c2, e2, hj, hf2, hs⟩ | ⟨c2, e2, hf2, hs⟩
      · refine .inl ⟨b.length + j, c2, by simp [scanPieces, e, e2], by rw [List.flatten_cons, List.length_append]; omega, ?_, ?_⟩
        · rw [List.flatten_cons, ← List.append_assoc]
          have : q.length + (b.length + j) = (q ++ b).length + j := by simp; omega
          rw [this]; exact hf2
        · rw [hs, List.flatten_cons, List.take_append (l₁ := b), List.take_of_length_le (l := b) (by omega), List.append_assoc]
          simp
      · refine .inr ⟨c2, by simp [scanPieces, e, e2], ?_, ?_⟩
        · rw [List.flatten_cons, ← List.append_assoc]; exact hf2
        · rw [hs, List.flatten_cons, List.append_assoc]

/-- C78: however the data of a chunk is cut into pieces, a boundary is found at the same place, or none, and the chunk ID is
the same; whatever the chunker was used for before the reset. -/
theorem C78_pieces (H : Bytes → Id) {p : Params} {d : Nat} (hd : 0 < d) (pre : List Act) (xs : List (Act × Answer)) (c : Chunker)
    (hpre : feed H p d Chunker.init pre = .ok (xs, c)) (pieces : List Bytes) :
    ∃ o c1 c2, scanPieces p d c.reset pieces = .ok (o, c1) ∧ chunkerScan p d c.reset pieces.flatten = .ok (o, c2) ∧ H c1.sha = H c2.sha := by
  have hd' : 0 < deff p d := by unfold deff; split <;> omega
  have hw : c.window.length = 48 := by
    obtain ⟨xs', c', h1, _, _, h4⟩ := feed_now H hd' pre Chunker.init [] (now_init p d)
    rw [hpre] at h1
    simp only [Res.ok.injEq, Prod.mk.injEq] at h1
    obtain ⟨_, rfl⟩ := h1
    exact h4
  have hr : Now p d c.reset [] := now_reset hw
  rcases now_scan hd' hr pieces.flatten with ⟨j, c2, e, hj, hf, h'⟩ | ⟨c2, e, hf, h'⟩ <;>
  rcases scanPieces_now hd' pieces c.reset [] hr (noCut_nil p d) with ⟨k, c1, e1, hk, hf1, hs⟩ | ⟨c1, e1, hf1, hs⟩
  · have := firstCut_unique hf hf1
    have : j = k := by omega
    subst this
    exact ⟨_, c1, c2, e1, e, by rw [h'.sha, hs]⟩
  · exact absurd hf.1 (hf1 _)
  · exact absurd hf1.1 (hf _)
  · exact ⟨_, c1, c2, e1, e, by rw [h'.sha, hs]⟩

/-- A chunker in use: no boundary, a boundary by maximum size in the next call, stuck, the ID, and the start of the next chunk. -/
example : (match feed (fun b => [UInt8.ofNat b.length]) ⟨10, 20, 50⟩ 15 Chunker.init
      [.scan ((List.range 40).map (fun i => UInt8.ofNat (i * i))), .scan (List.replicate 30 7), .scan [1], .take, .scan [5], .take] with
    | .ok (xs, _) => xs.map Prod.snd
    | .stop _ => []) = [.noBoundary, .boundary 10, .boundary 0, .id [50], .noBoundary, .id [1]] := by
  decide +kernel

end Csn.Props
