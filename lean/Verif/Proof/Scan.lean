import Verif.Proof.Chunker
/-
`chunker_scan_fd` reports the chunks of the specification, for every read schedule.
-/
namespace Csn.Proof
open Csn Spec

/-- Reported segments of consecutive pieces starting at offset `o`. -/
def segs (H : Bytes → Id) (o : Nat) : List Bytes → List Seg
  | [] => []
  | c :: cs => ⟨o, c.length, H c⟩ :: segs H (o + c.length) cs

/-- Calling a callback on a list of segments until it fails. -/
def runCb {σ : Type} (cb : σ → Seg → CbRes σ) (s : σ) : List Seg → ScanRes × σ
  | [] => (.ok, s)
  | x :: xs =>
    match cb s x with
    | .ok s' => runCb cb s' xs
    | .fail s' => (.fail, s')
    | .stop y s' => (.stop y, s')

theorem segs_append (H : Bytes → Id) (o : Nat) (a b : List Bytes) :
    segs H o (a ++ b) = segs H o a ++ segs H (o + a.flatten.length) b := by
  induction a generalizing o with
  | nil => simp [segs]
  | cons x xs ih => simp [segs, ih, Nat.add_assoc]

theorem segs_length (H : Bytes → Id) (o : Nat) (a : List Bytes) : (segs H o a).length = a.length := by
  induction a generalizing o with
  | nil => rfl
  | cons x xs ih => simp [segs, ih]

theorem runCb_append {σ : Type} (cb : σ → Seg → CbRes σ) (s s' : σ) (a b : List Seg)
    (h : runCb cb s a = (.ok, s')) : runCb cb s (a ++ b) = runCb cb s' b := by
  induction a generalizing s with
  | nil => simp [runCb] at h; simp [h]
  | cons x xs ih =>
    simp only [runCb, List.cons_append] at h ⊢
    cases hx : cb s x with
    | ok t => rw [hx] at h; exact ih t h
    | fail t => rw [hx] at h; simp at h
    | stop y t => rw [hx] at h; simp at h

/-- Cutting off some pieces at first cuts, with a remainder that is not examined. -/
inductive Cuts (min max d : Nat) : Bytes → List Bytes → Bytes → Prop
  | nil (data) : Cuts min max d data [] data
  | cons {data n ds rest} : FirstCut min max d data n → Cuts min max d (data.drop n) ds rest →
      Cuts min max d data (data.take n :: ds) rest

theorem FirstCut.append {min max d n : Nat} {q : Bytes} (x : Bytes) (h : FirstCut min max d q n) :
    FirstCut min max d (q ++ x) n := by
  have hn := h.1.2.1
  exact ⟨(cut_append hn).2 h.1, fun m hm hc => h.2 m hm ((cut_append (by omega)).1 hc)⟩

theorem Cuts.append {min max d : Nat} {q rest : Bytes} {ds : List Bytes} (x : Bytes)
    (h : Cuts min max d q ds rest) : Cuts min max d (q ++ x) ds (rest ++ x) := by
  induction h with
  | nil data => exact .nil _
  | @cons data n ds rest hf hc ih =>
    have hn := hf.1.2.1
    have := Cuts.cons (FirstCut.append x hf) (by rw [List.drop_append_of_le_length hn]; exact ih)
    rwa [List.take_append_of_le_length hn] at this

theorem Cuts.trans {min max d : Nat} {q r1 r2 : Bytes} {a b : List Bytes}
    (h1 : Cuts min max d q a r1) (h2 : Cuts min max d r1 b r2) : Cuts min max d q (a ++ b) r2 := by
  induction h1 with
  | nil data => exact h2
  | cons hf hc ih => exact Cuts.cons hf (ih h2)

theorem Cuts.chunking {min max d : Nat} {q r : Bytes} {a b : List Bytes}
    (h1 : Cuts min max d q a r) (h2 : Chunking min max d r b) : Chunking min max d q (a ++ b) := by
  induction h1 with
  | nil data => exact h2
  | cons hf hc ih => exact Chunking.cut hf (ih h2)

theorem Cuts.flatten {min max d : Nat} {q r : Bytes} {a : List Bytes}
    (h : Cuts min max d q a r) : a.flatten ++ r = q := by
  induction h with
  | nil data => rfl
  | @cons data n ds rest hf hc ih =>
    simp only [List.flatten_cons, List.append_assoc, ih, List.take_append_drop]

/-- Every byte string has a chunking. -/
theorem exists_chunking (min max d : Nat) : ∀ (n : Nat) (data : Bytes), data.length ≤ n →
    ∃ cs, Chunking min max d data cs := by
  intro n
  induction n with
  | zero =>
    intro data h
    have : data = [] := List.length_eq_zero_iff.1 (by omega)
    exact ⟨[], this ▸ .empty⟩
  | succ n ih =>
    intro data h
    by_cases h0 : data = []
    · exact ⟨[], h0 ▸ .empty⟩
    · by_cases hc : ∃ m, Cut min max d data m
      · have : ∃ m, FirstCut min max d data m := by
          obtain ⟨m, hm⟩ := hc
          induction m using Nat.strongRecOn with
          | ind m ihm =>
            by_cases hlt : ∃ k, k < m ∧ Cut min max d data k
            · obtain ⟨k, hk, hk2⟩ := hlt
              exact ihm k hk hk2
            · exact ⟨m, hm, fun k hk hk2 => hlt ⟨k, hk, hk2⟩⟩
        obtain ⟨m, hm⟩ := this
        have hm1 := hm.1.1
        obtain ⟨cs, hcs⟩ := ih (data.drop m) (by
          have : data.length ≠ 0 := fun e => h0 (List.length_eq_zero_iff.1 e)
          simp; omega)
        exact ⟨_, .cut hm hcs⟩
      · exact ⟨_, .last h0 (fun m hm => hc ⟨m, hm⟩)⟩

theorem firstCut_le {p : Params} {d n : Nat} {q : Bytes} (h : FirstCut p.min p.max d q n) :
    n ≤ Nat.max p.max 48 := by
  refine Nat.le_of_not_lt (fun hlt => ?_)
  have h1 := h.1.2.1
  refine h.2 (Nat.max p.max 48) hlt ⟨Nat.le_max_right _ _, by omega, Or.inl (Nat.le_max_left _ _)⟩

theorem noCut_le {p : Params} {d : Nat} {q : Bytes} (h : NoCut p d q) :
    q.length ≤ Nat.max p.max 48 := by
  refine Nat.le_of_not_lt (fun hlt => ?_)
  exact h (Nat.max p.max 48) ⟨Nat.le_max_right _ _, by omega, Or.inl (Nat.le_max_left _ _)⟩

/-- chunker.c:248-270. -/
theorem scanBuf_spec {σ : Type} (H : Bytes → Id) {p : Params} {d : Nat} (hd : 0 < deff p d)
    (hmax : p.max < 2 ^ 32) (cb : σ → Seg → CbRes σ) :
    ∀ (fuel : Nat) (c : Chunker) (last : Nat) (s : σ) (q buf : Bytes), buf.length ≤ fuel →
      Rep c q → NoCut p d q →
      ∃ x c' off' last' s' ds q',
        scanBuf H p d cb fuel c (last + q.length) last s buf = (x, c', off', last', s') ∧
        Cuts p.min p.max (deff p d) (q ++ buf) ds q' ∧
        runCb cb s (segs H last ds) = (x, s') ∧
        (x = .ok → Rep c' q' ∧ NoCut p d q' ∧ off' = last' + q'.length ∧
          last' = last + ds.flatten.length) := by
  intro fuel
  induction fuel with
  | zero =>
    intro c last s q buf hb hr hn
    have hb0 : buf = [] := List.length_eq_zero_iff.1 (by omega)
    subst hb0
    refine ⟨.ok, c, last + q.length, last, s, [], q, by simp [scanBuf], ?_, rfl, fun _ => ⟨hr, hn, rfl, by simp⟩⟩
    rw [List.append_nil]; exact .nil _
  | succ fuel ih =>
    intro c last s q buf hb hr hn
    by_cases hb0 : buf.length = 0
    · have hb0 : buf = [] := List.length_eq_zero_iff.1 hb0
      subst hb0
      refine ⟨.ok, c, last + q.length, last, s, [], q, by simp [scanBuf], ?_, rfl, fun _ => ⟨hr, hn, rfl, by simp⟩⟩
      rw [List.append_nil]; exact .nil _
    · obtain ⟨r, h1, h2⟩ := chunkerScan_spec hd c q buf hr hn
      unfold scanBuf
      rw [if_neg hb0]
      simp only [h1]
      obtain ⟨o, c'⟩ := r
      cases o with
      | none =>
        simp only [ScanSpec] at h2
        refine ⟨.ok, c', _, last, s, [], q ++ buf, rfl, .nil _, rfl, fun _ => ⟨h2.1, h2.2, by simp; omega, by simp⟩⟩
      | some n =>
        simp only [ScanSpec] at h2
        obtain ⟨j, hj, hjl, hf, hsha, hwl⟩ := h2
        have hnj : n = j := by omega
        subst hnj
        have hle := firstCut_le hf
        have hn0 : 0 < n := by
          refine Nat.pos_of_ne_zero (fun h => ?_)
          subst h
          exact hn q.length ((cut_append (Nat.le_refl _)).1 (by simpa using hf.1))
        have hmod : (last + q.length + n - last) % 2 ^ 32 = q.length + n := by
          have : Nat.max p.max 48 < 2 ^ 32 := Nat.max_lt.2 ⟨hmax, by decide⟩
          rw [Nat.mod_eq_of_lt] <;> omega
        have htake : (q ++ buf).take (q.length + n) = q ++ buf.take n := by
          rw [List.take_append, List.take_of_length_le (by omega)]
          congr 2; omega
        have hdrop : (q ++ buf).drop (q.length + n) = buf.drop n := by
          rw [List.drop_append, List.drop_of_length_le (by omega), List.nil_append]
          congr 1; omega
        have hlen : (q ++ buf.take n).length = q.length + n := by simp; omega
        have hseg : (⟨last, (last + q.length + n - last) % 2 ^ 32, H c'.sha⟩ : Seg)
            = ⟨last, (q ++ buf.take n).length, H (q ++ buf.take n)⟩ := by
          rw [hmod, hlen, hsha]
        simp only [hseg]
        cases hcb : cb s ⟨last, (q ++ buf.take n).length, H (q ++ buf.take n)⟩ with
        | stop y s' =>
          refine ⟨.stop y, c', _, last, s', [q ++ buf.take n], buf.drop n, rfl, ?_, ?_, by simp⟩
          · rw [← htake]
            refine Cuts.cons hf ?_
            rw [hdrop]; exact .nil _
          · simp only [segs, runCb]; rw [hcb]
        | fail s' =>
          refine ⟨.fail, c', _, last, s', [q ++ buf.take n], buf.drop n, rfl, ?_, ?_, by simp⟩
          · rw [← htake]
            refine Cuts.cons hf ?_
            rw [hdrop]; exact .nil _
          · simp only [segs, runCb]; rw [hcb]
        | ok s' =>
          obtain ⟨x, c'', off', last', s'', ds, q', e1, e2, e3, e4⟩ :=
            ih c'.reset (last + q.length + n) s' [] (buf.drop n) (by simp; omega)
              (rep_reset c' hwl) (noCut_nil p d)
          simp only [List.length_nil, Nat.add_zero, List.nil_append] at e1 e2
          refine ⟨x, c'', off', last', s'', (q ++ buf.take n) :: ds, q', e1, ?_, ?_, ?_⟩
          · rw [← htake]
            refine Cuts.cons hf ?_
            rw [hdrop]; exact e2
          · simp only [segs, runCb]
            rw [hcb]
            simp only [hlen, ← Nat.add_assoc]; exact e3
          · intro hx
            obtain ⟨g1, g2, g3, g4⟩ := e4 hx
            refine ⟨g1, g2, g3, ?_⟩
            rw [g4]; simp only [List.flatten_cons, List.length_append, hlen]; omega

/-- What the whole scan has to do.  `sys` is the schedule, `last` the start of the current
chunk, `pos` the current position. -/
def ScanOutcome {σ : Type} (H : Bytes → Id) (p : Params) (d : Nat) (cb : σ → Seg → CbRes σ)
    (f : Bytes) (last pos : Nat) (s : σ) (sys : List Sys) (res : ScanRes) (s' : σ) : Prop :=
  ∃ e cs k x, pos ≤ e ∧ e ≤ f.length ∧ (Sys.zero ∉ sys → e = f.length) ∧
    Chunking p.min p.max (deff p d) ((f.take e).drop last) cs ∧
    runCb cb s ((segs H last cs).take k) = (x, s') ∧
    ((res = .ok ∧ x = .ok ∧ cs.length ≤ k) ∨ (res ≠ .ok ∧ x = res) ∨
      (x = .ok ∧ ((res = .fail ∧ Sys.err ∈ sys) ∨ res = .stop .killed)))

theorem take_segs_append (H : Bytes → Id) (o : Nat) (a b : List Bytes) :
    (segs H o (a ++ b)).take a.length = segs H o a := by
  rw [segs_append, List.take_append_of_le_length (by rw [segs_length]; omega),
    List.take_of_length_le (by rw [segs_length]; omega)]

theorem scanLoop_spec {σ : Type} (H : Bytes → Id) {p : Params} {d : Nat} (hd : 0 < deff p d)
    (hmax : p.max < 2 ^ 32) (bufsiz : Nat) (hb : 0 < bufsiz) (cb : σ → Seg → CbRes σ) (f : Bytes) :
    ∀ (sys : List Sys) (c : Chunker) (last : Nat) (s : σ) (q : Bytes),
      last + q.length ≤ f.length → (f.drop last).take q.length = q → Rep c q → NoCut p d q →
      ∃ res s' r, scanLoop H p d bufsiz cb f c (last + q.length) (last + q.length) last s sys = (res, s', r) ∧
        ScanOutcome H p d cb f last (last + q.length) s sys res s' := by
  intro sys
  induction sys with
  | nil =>
    intro c last s q hl hq hr hn
    refine ⟨_, _, _, rfl, ?_⟩
    obtain ⟨cs, hcs⟩ := exists_chunking p.min p.max (deff p d) _ ((f.take f.length).drop last) (Nat.le_refl _)
    exact ⟨f.length, cs, 0, .ok, hl, Nat.le_refl _, fun _ => rfl, hcs, by simp [runCb], Or.inr (Or.inr ⟨rfl, Or.inr rfl⟩)⟩
  | cons y ys ih =>
    intro c last s q hl hq hr hn
    -- end of file (real or reported by a zero result)
    have heof : ∀ e, e = last + q.length → (Sys.zero ∉ y :: ys → e = f.length) →
        ∃ res s' r, (if last + q.length ≠ last then
          match cb s ⟨last, (last + q.length - last) % 2 ^ 32, H c.sha⟩ with
          | .stop y s' => (ScanRes.stop y, s', ys)
          | .fail s' => (.fail, s', ys)
          | .ok s' => (.ok, s', ys)
        else (.ok, s, ys)) = (res, s', r) ∧ ScanOutcome H p d cb f last (last + q.length) s (y :: ys) res s' := by
      intro e he hz
      have hle : e ≤ f.length := by omega
      have hdrop : (f.take e).drop last = q := by
        rw [List.drop_take, he]
        rw [show last + q.length - last = q.length by omega]; exact hq
      by_cases h0 : q.length = 0
      · have hq0 : q = [] := List.length_eq_zero_iff.1 h0
        rw [if_neg (by omega)]
        refine ⟨_, _, _, rfl, e, [], 0, .ok, by omega, hle, hz, ?_, rfl, Or.inl ⟨rfl, rfl, by simp⟩⟩
        rw [hdrop, hq0]; exact .empty
      · have hq0 : q ≠ [] := fun h => h0 (by rw [h]; rfl)
        rw [if_pos (by omega)]
        have hmod : (last + q.length - last) % 2 ^ 32 = q.length := by
          have := noCut_le hn
          have : Nat.max p.max 48 < 2 ^ 32 := Nat.max_lt.2 ⟨hmax, by decide⟩
          rw [Nat.mod_eq_of_lt] <;> omega
        rw [hmod, hr.sha]
        have hch : Chunking p.min p.max (deff p d) ((f.take e).drop last) [q] := by
          rw [hdrop]; exact .last hq0 hn
        cases hcb : cb s ⟨last, q.length, H q⟩ with
        | stop z s' =>
          exact ⟨_, _, _, rfl, e, [q], 1, .stop z, by omega, hle, hz, hch, by simp [segs, runCb, hcb],
            Or.inr (Or.inl ⟨by simp, rfl⟩)⟩
        | fail s' =>
          exact ⟨_, _, _, rfl, e, [q], 1, .fail, by omega, hle, hz, hch, by simp [segs, runCb, hcb],
            Or.inr (Or.inl ⟨by simp, rfl⟩)⟩
        | ok s' =>
          exact ⟨_, _, _, rfl, e, [q], 1, .ok, by omega, hle, hz, hch, by simp [segs, runCb, hcb],
            Or.inl ⟨rfl, rfl, by simp⟩⟩
    cases y with
    | eintr =>
      obtain ⟨res, s', r, h1, e, cs, k, x, g0, g1, g2, g3, g4, g5⟩ := ih c last s q hl hq hr hn
      refine ⟨res, s', r, by simp only [scanLoop]; exact h1, e, cs, k, x, g0, g1, ?_, g3, g4, ?_⟩
      · intro hz; exact g2 (fun h => hz (List.mem_cons_of_mem _ h))
      · rcases g5 with g | g | ⟨g, ⟨g', g''⟩ | g'⟩
        · exact Or.inl g
        · exact Or.inr (Or.inl g)
        · exact Or.inr (Or.inr ⟨g, Or.inl ⟨g', List.mem_cons_of_mem _ g''⟩⟩)
        · exact Or.inr (Or.inr ⟨g, Or.inr g'⟩)
    | err =>
      refine ⟨.fail, s, ys, rfl, ?_⟩
      obtain ⟨cs, hcs⟩ := exists_chunking p.min p.max (deff p d) _ ((f.take f.length).drop last) (Nat.le_refl _)
      exact ⟨f.length, cs, 0, .ok, hl, Nat.le_refl _, fun _ => rfl, hcs, by simp [runCb],
        Or.inr (Or.inr ⟨rfl, Or.inl ⟨rfl, by simp⟩⟩)⟩
    | zero =>
      simp only [scanLoop, List.isEmpty_nil, if_true]
      exact heof (last + q.length) rfl (fun h => absurd (List.mem_cons_self) h)
    | some n =>
      simp only [scanLoop]
      by_cases hg : ((f.drop (last + q.length)).take (min (n + 1) bufsiz)).isEmpty = true
      · rw [if_pos hg]
        refine heof (last + q.length) rfl (fun _ => ?_)
        rw [List.isEmpty_iff] at hg
        have := congrArg List.length hg
        simp only [List.length_take, List.length_drop, List.length_nil] at this
        omega
      · rw [if_neg hg]
        generalize hgot : (f.drop (last + q.length)).take (min (n + 1) bufsiz) = got at hg
        have hgl : last + q.length + got.length ≤ f.length := by
          have := congrArg List.length hgot
          simp only [List.length_take, List.length_drop] at this
          omega
        have hpre : (f.drop (last + q.length)).take got.length = got := by
          have := congrArg List.length hgot
          conv => rhs; rw [← hgot]
          simp only [List.length_take] at this
          rw [← this]
          simp [List.take_eq_take_iff]
        have hfull : (f.drop last).take (q.length + got.length) = q ++ got := by
          rw [List.take_add, hq, List.drop_drop, hpre]
        have hsplit : f.drop last = (q ++ got) ++ f.drop (last + q.length + got.length) := by
          rw [← hfull, Nat.add_assoc last, ← List.drop_drop, List.take_append_drop]
        obtain ⟨x, c', off', last', s', ds, q', h1, h2, h3, h4⟩ :=
          scanBuf_spec H hd hmax cb got.length c last s q got (Nat.le_refl _) hr hn
        rw [h1]
        have hcuts := Cuts.append (f.drop (last + q.length + got.length)) h2
        rw [← hsplit] at hcuts
        have hstop : ∀ z, x = z → z ≠ .ok → ScanOutcome H p d cb f last (last + q.length) s (.some n :: ys) z s' := by
          intro z hx hz
          obtain ⟨cs, hcs⟩ := exists_chunking p.min p.max (deff p d) _
            (q' ++ f.drop (last + q.length + got.length)) (Nat.le_refl _)
          refine ⟨f.length, ds ++ cs, ds.length, x, by omega, Nat.le_refl _, fun _ => rfl, ?_, ?_,
            Or.inr (Or.inl ⟨hz, hx⟩)⟩
          · rw [List.take_length]; exact hcuts.chunking hcs
          · rw [take_segs_append]; exact h3
        cases x with
        | stop z => exact ⟨_, _, _, rfl, hstop _ rfl (by simp)⟩
        | fail => exact ⟨_, _, _, rfl, hstop _ rfl (by simp)⟩
        | ok =>
          obtain ⟨g1, g2, g3, g4⟩ := h4 rfl
          have hfl := Cuts.flatten h2
          have hlen := congrArg List.length hfl
          simp only [List.length_append] at hlen
          have hpos : last + q.length + got.length = last' + q'.length := by omega
          have hdl : f.drop last' = q' ++ f.drop (last + q.length + got.length) := by
            have := Cuts.flatten hcuts
            rw [g4, ← List.drop_drop, ← this, List.drop_append, List.drop_of_length_le (by omega)]
            simp
          have hq' : (f.drop last').take q'.length = q' := by
            rw [hdl]; simp
          obtain ⟨res, s'', r, k1, e, cs, k, x2, l0, l1, l2, l3, l4, l5⟩ :=
            ih c' last' s' q' (by omega) hq' g1 g2
          simp only [hpos, g3]
          refine ⟨res, s'', r, k1, e, ds ++ cs, ds.length + k, x2, by omega, l1, ?_, ?_, ?_, ?_⟩
          · intro hz; exact l2 (fun h => hz (List.mem_cons_of_mem _ h))
          · -- chunking of the truncated file
            have hs2 : (f.take e).drop last = (q ++ got) ++ (f.take e).drop (last + q.length + got.length) := by
              rw [List.drop_take, List.drop_take, hsplit]
              rw [List.take_append, List.take_of_length_le (by simp; omega)]
              congr 2
              simp only [List.length_append]; omega
            have hcuts2 := Cuts.append ((f.take e).drop (last + q.length + got.length)) h2
            rw [← hs2] at hcuts2
            refine hcuts2.chunking ?_
            have : (f.take e).drop last' = q' ++ (f.take e).drop (last + q.length + got.length) := by
              have := Cuts.flatten hcuts2
              rw [g4, ← List.drop_drop, ← this, List.drop_append, List.drop_of_length_le (by omega)]
              simp
            rw [← this]; exact l3
          · rw [segs_append, ← segs_length H last ds, List.take_length_add_append]
            rw [runCb_append cb s s' _ _ h3, ← g4]
            exact l4
          · rcases l5 with g | g | ⟨g, ⟨g', g''⟩ | g'⟩
            · refine Or.inl ⟨g.1, g.2.1, ?_⟩
              have := g.2.2
              simp; omega
            · exact Or.inr (Or.inl g)
            · exact Or.inr (Or.inr ⟨g, Or.inl ⟨g', List.mem_cons_of_mem _ g''⟩⟩)
            · exact Or.inr (Or.inr ⟨g, Or.inr g'⟩)

end Csn.Proof
