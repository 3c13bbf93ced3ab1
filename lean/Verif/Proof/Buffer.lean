import Verif.Proof.HttpFrame
/-
The size of the decode buffer.
-/
namespace Csn.Proof
open Csn Spec

/-- The buffer holds what it is filled with, and its size is an object's size. -/
structure BufOk (r : Req) : Prop where
  fill : r.fill.length ≤ r.size
  size : r.size < 2 ^ 63

/-- What absorbing or processing up to `t` further bytes does to the buffer. -/
structure Grown (r : Req) (t : Nat) (r' : Req) : Prop where
  ok : BufOk r'
  fill : r'.fill.length ≤ r.fill.length + t
  ge : r.size ≤ r'.size
  le : r'.size ≤ max r.size (r.fill.length + 2 * t)

theorem Grown.refl {r : Req} (h : BufOk r) (t : Nat) : Grown r t r := ⟨h, by omega, Nat.le_refl _, by omega⟩

theorem wp_absorb_size {env : Env} {ks : Option (Nat → UInt8)} {r : Req} {data : Bytes} {w : World} (hr : BufOk r) :
    wp (absorb env ks r data) (fun a w' => Grown r data.length a.2 ∧ w'.net = w.net) (fun _ _ => True) w := by
  obtain ⟨h3, h4⟩ := hr
  unfold absorb
  have hroom : (r.size + 2 ^ 64 - r.fill.length) % 2 ^ 64 = r.size - r.fill.length := by omega
  rw [hroom]
  have key : ∀ (size : Nat) (w1 : World), w1.net = w.net → r.size ≤ size → size < 2 ^ 63 → size ≤ max r.size (r.fill.length + 2 * data.length) →
      wp (match ks with
        | some k =>
          match encryptDo k env.evp0 r.kpos data with
          | none => pure (false, { r with size := size })
          | some d =>
            if d.length < data.length then M.stop .ub
            else if r.fill.length + data.length > size then M.stop .ub
            else pure (true, { r with size := size, fill := r.fill ++ d, kpos := r.kpos + d.length })
        | none =>
          if r.fill.length + data.length > size then M.stop .ub
          else pure (true, { r with size := size, fill := r.fill ++ data }) : M (Bool × Req))
      (fun a w' => Grown r data.length a.2 ∧ w'.net = w.net) (fun _ _ => True) w1 := by
    intro size w1 gn g1 g2 g3
    cases ks with
    | none =>
      simp only
      split
      · trivial
      · exact wp_pure ⟨⟨⟨by simp; omega, g2⟩, by simp, g1, g3⟩, gn⟩
    | some k =>
      simp only
      cases he : encryptDo k env.evp0 r.kpos data with
      | none => exact wp_pure ⟨⟨⟨by simp only; omega, g2⟩, by simp, g1, g3⟩, gn⟩
      | some d =>
        have hd : d.length ≤ data.length := by
          unfold encryptDo at he
          simp only at he
          split at he
          · cases he
          · cases he
            rw [xorFrom_length, List.length_take]; omega
        simp only
        split
        · trivial
        · split
          · trivial
          · exact wp_pure ⟨⟨⟨by simp; omega, g2⟩, by simp; omega, g1, g3⟩, gn⟩
  by_cases hlt : r.size - r.fill.length < data.length
  · simp only [hlt, if_true]
    by_cases hge : (r.size + data.length) % 2 ^ 64 < r.size
    · simp only [hge, if_true]
      exact wp_bind (wp_pure (wp_pure ⟨Grown.refl ⟨h3, h4⟩ _, rfl⟩))
    · simp only [hge, if_false]
      refine wp_bind (wp_alloc ?_)
      cases ha : (allocPure ((r.size + data.length) % 2 ^ 64) w.mem).1 with
      | false =>
        simp only [Bool.not_false, if_true]
        exact wp_bind (wp_pure (wp_pure ⟨Grown.refl ⟨h3, h4⟩ _, rfl⟩))
      | true =>
        simp only [Bool.not_true, Bool.false_eq_true, if_false]
        have hs := allocPure_true ha
        have hle : (r.size + data.length) % 2 ^ 64 ≤ r.size + data.length := Nat.mod_le _ _
        exact wp_bind (wp_pure (key _ _ rfl (by omega) hs (by omega)))
  · simp only [hlt, if_false]
    exact wp_bind (wp_pure (key _ _ rfl (Nat.le_refl _) h4 (by omega)))

theorem wp_handleData_size {env : Env} {r : Req} {data : Bytes} {w : World} :
    wp (handleData env r data) (fun a w' => a.2.fill = r.fill ∧ a.2.size = r.size ∧ w'.net = w.net) (fun _ _ => True) w := by
  have run : ∀ (r' : Req) (w : World), r'.fill = r.fill → r'.size = r.size →
      wp (do
        if r'.st ≠ .streaming then M.stop .abort
        let room := r'.out.length - r'.written
        match env.zstd r'.hist room data with
        | none => return (none, { r' with hist := r'.hist ++ [(room, data)] })
        | some (k, o) =>
          if o.length > room ∨ k > data.length then M.stop .ub
          else return (some k, { r' with
            hist := r'.hist ++ [(room, data)]
            written := r'.written + o.length
            out := bufWrite r'.out r'.written o }) : M (Option Nat × Req))
        (fun a w' => a.2.fill = r.fill ∧ a.2.size = r.size ∧ w'.net = w.net) (fun _ _ => True) w := by
    intro r' w h1 h2
    have rest : ∀ w, wp (match env.zstd r'.hist (r'.out.length - r'.written) data with
        | none => return (none, { r' with hist := r'.hist ++ [(r'.out.length - r'.written, data)] })
        | some (k, o) =>
          if o.length > r'.out.length - r'.written ∨ k > data.length then M.stop .ub
          else return (some k, { r' with
            hist := r'.hist ++ [(r'.out.length - r'.written, data)]
            written := r'.written + o.length
            out := bufWrite r'.out r'.written o }) : M (Option Nat × Req))
        (fun a w' => a.2.fill = r.fill ∧ a.2.size = r.size ∧ w'.net = w.net) (fun _ _ => True) w := by
      intro w
      split
      · exact wp_pure ⟨h1, h2, rfl⟩
      · split
        · trivial
        · exact wp_pure ⟨h1, h2, rfl⟩
    split
    · trivial
    · exact rest w
  unfold handleData
  simp only
  split
  · split
    · exact wp_pure ⟨rfl, rfl, rfl⟩
    · split
      · exact run { r with st := .streaming } w rfl rfl
      · exact wp_pure ⟨rfl, rfl, rfl⟩
  · exact run r w rfl rfl

theorem wp_dataCb_size {env : Env} {ks : Option (Nat → UInt8)} {http : Option Nat} {r : Req} {frag : Bytes} {w : World} (hr : BufOk r) :
    wp (dataCb env ks http r frag) (fun a w' => Grown r frag.length a.2 ∧ w'.net = w.net) (fun _ _ => True) w := by
  unfold dataCb
  simp only
  split
  · exact wp_pure ⟨⟨⟨hr.fill, hr.size⟩, by simp, Nat.le_refl _, by simp only; omega⟩, rfl⟩
  · split
    · exact wp_pure ⟨Grown.refl hr _, rfl⟩
    · split
      · refine wp_bind (wp_mono (wp_absorb_size hr) (fun a w1 g => ?_) (fun _ _ _ => trivial))
        obtain ⟨b, r1⟩ := a
        obtain ⟨g, gn⟩ := g
        simp only at g
        cases b with
        | false => exact wp_pure ⟨⟨⟨g.ok.fill, g.ok.size⟩, g.fill, g.ge, g.le⟩, gn⟩
        | true =>
          simp only
          refine wp_bind (wp_mono wp_handleData_size (fun a w2 e => ?_) (fun _ _ _ => trivial))
          obtain ⟨k, r2⟩ := a
          obtain ⟨e1, e2, en⟩ := e
          simp only at e1 e2
          have g1 := g.ok.fill
          have g2 := g.ok.size
          have g3 := g.fill
          cases k with
          | none => exact wp_pure ⟨⟨⟨by simp only [e1, e2]; exact g1, by simp only [e2]; exact g2⟩, by simp only [e1]; exact g3, by simp only [e2]; exact g.ge, by simp only [e2]; exact g.le⟩, en.trans gn⟩
          | some k =>
            exact wp_pure ⟨⟨⟨by simp only [e1, e2, List.length_drop]; omega, by simp only [e2]; exact g2⟩, by simp only [e1, List.length_drop]; omega, by simp only [e2]; exact g.ge, by simp only [e2]; exact g.le⟩, en.trans gn⟩
      · next hc =>
        refine wp_bind (wp_mono wp_handleData_size (fun a w1 e => ?_) (fun _ _ _ => trivial))
        obtain ⟨k, r1⟩ := a
        obtain ⟨e1, e2, en⟩ := e
        simp only at e1 e2
        have o1 : BufOk r1 := ⟨by rw [e1, e2]; exact hr.fill, by rw [e2]; exact hr.size⟩
        have i1 : Grown r frag.length r1 := ⟨o1, by rw [e1]; omega, by rw [e2]; exact Nat.le_refl _, by rw [e2]; omega⟩
        cases k with
        | none => exact wp_pure ⟨⟨⟨o1.fill, o1.size⟩, i1.fill, i1.ge, i1.le⟩, en⟩
        | some k =>
          simp only
          split
          · refine wp_bind (wp_mono (wp_absorb_size o1) (fun a w2 g => ?_) (fun _ _ _ => trivial))
            obtain ⟨b, r2⟩ := a
            obtain ⟨g, gn⟩ := g
            simp only at g
            have g3 := g.fill
            have g4 := g.ge
            have g5 := g.le
            rw [e1, List.length_drop] at g3 g5
            rw [e2] at g4 g5
            cases b with
            | false => exact wp_pure ⟨⟨⟨g.ok.fill, g.ok.size⟩, by simp only; omega, g4, by simp only; omega⟩, gn.trans en⟩
            | true => exact wp_pure ⟨⟨g.ok, by simp only; omega, g4, by simp only; omega⟩, gn.trans en⟩
          · exact wp_pure ⟨i1, en⟩

/-- `max size (2 * (fill + t))` bounds the size, for all the fragments together. -/
structure Grown2 (r : Req) (t : Nat) (r' : Req) : Prop where
  ok : BufOk r'
  fill : r'.fill.length ≤ r.fill.length + t
  ge : r.size ≤ r'.size
  le : r'.size ≤ max r.size (2 * (r.fill.length + t))

theorem Grown2.trans {a b c : Req} {s t : Nat} (h : Grown2 a s b) (h' : Grown2 b t c) : Grown2 a (s + t) c := by
  obtain ⟨h1, h2, h3, h4⟩ := h
  obtain ⟨g1, g2, g3, g4⟩ := h'
  exact ⟨g1, by omega, by omega, by omega⟩

theorem Grown.two {a b : Req} {s : Nat} (h : Grown a s b) : Grown2 a s b :=
  ⟨h.ok, h.fill, h.ge, by have := h.le; omega⟩

theorem Grown2.mono {a b : Req} {s t : Nat} (h : Grown2 a s b) (hst : s ≤ t) : Grown2 a t b :=
  ⟨h.ok, by have := h.fill; omega, h.ge, by have := h.le; omega⟩

theorem wp_deliver_size {env : Env} {ks : Option (Nat → UInt8)} {http : Option Nat} (fs : List Bytes) : ∀ (r : Req) (w : World), BufOk r →
    wp (deliver env ks http r fs) (fun a w' => Grown2 r fs.flatten.length a.2 ∧ w'.net = w.net) (fun _ _ => True) w := by
  induction fs with
  | nil =>
    intro r w hr
    exact wp_pure ⟨(Grown.refl hr _).two, rfl⟩
  | cons f fs ih =>
    intro r w hr
    have hfl : (f :: fs).flatten.length = f.length + fs.flatten.length := by simp
    unfold deliver
    refine wp_bind (wp_mono (wp_dataCb_size hr) (fun a w1 g => ?_) (fun _ _ _ => trivial))
    obtain ⟨k, r1⟩ := a
    obtain ⟨g, gn⟩ := g
    simp only at g
    simp only
    split
    · exact wp_pure ⟨by rw [hfl]; exact g.two.mono (by omega), gn⟩
    · refine wp_mono (ih r1 w1 g.ok) (fun a w2 i => ?_) (fun _ _ _ => trivial)
      exact ⟨by rw [hfl]; exact g.two.trans i.1, i.2.trans gn⟩

theorem wp_perform_size {env : Env} {ks : Option (Nat → UInt8)} {url : Bytes} {r : Req} {w : World} (hr : BufOk r) :
    wp (perform env ks url r) (fun a w' => ∃ f, w.net = f :: w'.net ∧ Grown2 r (f url).frags.flatten.length a.2.2) (fun _ _ => True) w := by
  unfold perform
  refine wp_bind (wp_emit ?_)
  apply wp_bind
  cases hn : w.net with
  | nil => simp only [wp]
  | cons f rest =>
    simp only [wp]
    refine wp_bind (wp_mono (wp_deliver_size (f url).frags r _ hr) (fun a w1 g => ?_) (fun _ _ _ => trivial))
    exact wp_pure ⟨f, by rw [g.2], g.1⟩

theorem wp_retried_size {env : Env} {ks : Option (Nat → UInt8)} {url : Bytes} (m : Nat) : ∀ (wait : Nat) (r : Req) (w : World), BufOk r →
    wp (retried env ks url m wait r)
      (fun a w' => ∃ used, w.net = used ++ w'.net ∧ used.length ≤ m + 1 ∧ Grown2 r (bodyBytes url used) a.2.2) (fun _ _ => True) w := by
  induction m with
  | zero =>
    intro wait r w hr
    unfold retried
    refine wp_bind (wp_mono (wp_perform_size hr) (fun a w1 g => ?_) (fun _ _ _ => trivial))
    obtain ⟨code, http, r1⟩ := a
    obtain ⟨f, f1, f2⟩ := g
    simp only at f2
    have e : Grown2 r (bodyBytes url [f]) r1 := by simpa [bodyBytes] using f2
    simp only
    split
    · exact wp_pure ⟨[f], f1, by simp, e⟩
    · refine wp_bind (wp_emit ?_)
      exact wp_pure ⟨[f], f1, by simp, e⟩
  | succ m ih =>
    intro wait r w hr
    unfold retried
    refine wp_bind (wp_mono (wp_perform_size hr) (fun a w1 g => ?_) (fun _ _ _ => trivial))
    obtain ⟨code, http, r1⟩ := a
    obtain ⟨f, f1, f2⟩ := g
    simp only at f2
    simp only
    split
    · exact wp_pure ⟨[f], f1, by simp, by simpa [bodyBytes] using f2⟩
    · refine wp_bind (wp_emit ?_)
      refine wp_mono (ih _ r1 _ f2.ok) (fun a w2 g => ?_) (fun _ _ _ => trivial)
      obtain ⟨used, u1, u2, u3⟩ := g
      exact ⟨f :: used, by rw [f1]; simpa using u1, by simp; omega, by
        have := f2.trans u3
        simpa [bodyBytes] using this⟩

theorem httpJudge_size (env : Env) (h : Http) (id : Id) (code : Nat) (http : Option Nat) (r : Req) :
    (httpJudge env h id code http r).2.1.size = r.size := by
  unfold httpJudge increaseErr
  simp only
  repeat' split
  all_goals rfl

theorem wp_httpGet_size {env : Env} {h : Http} {id : Id} {out : Bytes} {w : World} (hs : h.size < 2 ^ 63) :
    wp (httpGet env h id out)
      (fun a w' => ∃ used, w.net = used ++ w'.net ∧ used.length ≤ 10 ∧ h.size ≤ a.2.1.size ∧ a.2.1.size < 2 ^ 63 ∧
        a.2.1.size ≤ max h.size (2 * bodyBytes (urlOf h id) used)) (fun _ _ => True) w := by
  unfold httpGet
  simp only
  split
  · trivial
  · refine wp_bind (wp_alloc ?_)
    split
    · exact wp_pure ⟨[], rfl, by simp, Nat.le_refl _, hs, by simp only; omega⟩
    · refine wp_bind (wp_mono (wp_retried_size 9 200000 _ _ ⟨by simp, hs⟩) (fun a w1 g => ?_) (fun _ _ _ => trivial))
      obtain ⟨code, http, r1⟩ := a
      obtain ⟨used, u1, u2, u3⟩ := g
      refine wp_pure ⟨used, u1, u2, ?_, ?_, ?_⟩
      · rw [httpJudge_size]; exact u3.ge
      · rw [httpJudge_size]; exact u3.ok.size
      · rw [httpJudge_size]; have := u3.le; simpa using this

/-! ### Frames whose bytes are consumed as they arrive -/

theorem pureCb_held {env : Env} {f c : Bytes} {I : List (Nat × Bytes) → Nat → Nat → Prop} {K : Nat} (hp : Prompt env.zstd f c I K)
    {pre frag post : Bytes} {v : View} (hv : GoodV f c I pre v) (he : f = pre ++ frag ++ post) (hne : frag ≠ []) :
    (pureCb env (some 200) v frag).1 = true → (pureCb env (some 200) v frag).2.fill.length ≤ max K 3 := by
  obtain ⟨⟨i, i1, i2, i3⟩, h2, h3, h4, h5⟩ := hv
  have hlen : 0 < frag.length := List.length_pos_iff.mpr hne
  have hx : v.fill ++ frag = (pre ++ frag).drop i := by rw [i2, List.drop_append_of_le_length i1]
  have hxp : (pre ++ frag).drop i <+: f.drop i := by
    rw [he, List.drop_append_of_le_length (l₁ := pre ++ frag) (by simp only [List.length_append]; omega)]
    exact List.prefix_append _ _
  have hxne : (pre ++ frag).drop i ≠ [] := by
    intro h
    have := congrArg List.length h
    simp at this; omega
  unfold pureCb core
  rw [hx]
  split
  · simp
  · split
    · simp
    · split
      · simp
      · next e =>
        split at e
        · next hc =>
          cases e
          intro _
          simp only [List.drop_zero]
          have := hc.2; omega
        · split at e
          · cases e
          · split at e
            · cases e
            · next k p hz =>
              cases e
              intro _
              simp only [List.length_drop]
              have hI : ∃ j o, I v.hist j o ∧ j = i ∧ o = v.written := by
                rcases i3 with ⟨j1, j2, j3, j4, j5⟩ | ⟨j1, j2⟩
                · exact ⟨0, 0, by rw [j3]; exact hp.init, j2.symm, j4.symm⟩
                · exact ⟨_, _, j2, rfl, rfl⟩
              obtain ⟨j, o, hI, rfl, rfl⟩ := hI
              have := hp.prompt _ _ _ _ _ _ _ hI hxne hxp (by omega) hz
              simp only [List.length_drop] at this
              omega

theorem wp_deliver_held {env : Env} (hz : Sane env) {ks : Option (Nat → UInt8)} {n L K : Nat} {f c : Bytes}
    {I : List (Nat × Bytes) → Nat → Nat → Prop} (hp : Prompt env.zstd f c I K) (hm : f.take 4 = zstdMagic) (fs : List Bytes) :
    ∀ (pre : Bytes) (v : View) (r : Req) (w : World), ReqOk n r → Rel v r → GoodV f c I pre v → v.fill.length ≤ max K 3 →
      f = pre ++ (decFrags ks r.kpos fs).flatten → (∀ x ∈ fs, x ≠ [] ∧ x.length < 2 ^ 32 ∧ x.length ≤ L) → AllMem w.mem →
      r.size + fs.flatten.length < 2 ^ 63 →
      wp (deliver env ks (some 200) r fs) (fun a _ => a.2.size ≤ max r.size (max K 3 + 2 * L)) (fun _ _ => False) w := by
  induction fs with
  | nil =>
    intro pre v r w hr hv hg hk he hfs hmem hsz
    exact wp_pure (by simp only; omega)
  | cons x fs ih =>
    intro pre v r w hr hv hg hk he hfs hmem hsz
    have hsz' : r.size + (x.length + fs.flatten.length) < 2 ^ 63 := by simpa using hsz
    have hx := hfs x (by simp)
    have hne : incoming ks r.kpos x ≠ [] := fun h => by
      have := congrArg List.length h
      rw [incoming_length] at this
      exact hx.1 (List.length_eq_zero_iff.mp this)
    have he' : f = pre ++ incoming ks r.kpos x ++ (decFrags ks (r.kpos + x.length) fs).flatten := by rw [he]; simp [decFrags]
    have hst : v.st ≠ .failed := by
      obtain ⟨i, _, _, i3⟩ := hg.pos
      rcases i3 with h | h <;> rw [h.1] <;> simp
    have hfill : r.fill = v.fill := hv.fill (by rw [hv.st]; exact hst)
    unfold deliver
    refine wp_bind (wp_mono (wp_and (wp_dataCb_pure hz hr hv hx.1 hx.2.1 hmem (by omega)) (wp_dataCb_size ⟨hr.fill, hr.size⟩)) (fun a w1 g => ?_) (fun _ _ g => g.1))
    obtain ⟨k, r1⟩ := a
    obtain ⟨⟨g1, g2, g3, g4, g5, g6, g7⟩, gs, _⟩ := g
    simp only at g3 g4 g5 g6 g7 gs
    obtain ⟨q1, q2⟩ := pureCb_good hp.toFrameOf hm hg he' hne
    have q3 := pureCb_held hp hg he' hne q1
    have he : k = x.length := g5.mpr q1
    have hle := gs.le
    rw [hfill] at hle
    have hL := hx.2.2
    simp only [he, ne_eq, not_true_eq_false, if_false]
    have hd : decFrags ks r1.kpos fs = decFrags ks (r.kpos + x.length) fs := by
      cases ks with
      | none => rw [decFrags_none, decFrags_none]
      | some k => rw [g7 q1 rfl]
    refine wp_mono (ih _ _ r1 w1 g3 g6 q2 q3 (by rw [hd]; exact he') (fun y hy => hfs y (by simp [hy])) g2 (by omega)) (fun a w2 i => ?_) (fun _ _ h => h)
    omega

theorem wp_retried_tries {env : Env} {ks : Option (Nat → UInt8)} {url : Bytes} {g : Bytes → CurlRun} {rest : List (Bytes → CurlRun)} {r : Req}
    {Q : Req → Prop} (hfin : ¬ TransientCode (g url).code) (hq : ∀ w, AllMem w.mem →
      wp (deliver env ks (g url).http r (g url).frags) (fun a _ => Q a.2) (fun _ _ => False) w)
    (fs : List (Bytes → CurlRun)) : ∀ (m wait : Nat) (w : World), fs.length ≤ m →
    (∀ f ∈ fs, (f url).frags = [] ∧ TransientCode (f url).code) → w.net = fs ++ g :: rest → AllMem w.mem →
    wp (retried env ks url m wait r) (fun a _ => Q a.2.2) (fun _ _ => False) w := by
  induction fs with
  | nil =>
    intro m wait w _ _ hn hm
    unfold retried
    refine wp_bind (wp_mono (Q := fun a _ => Q a.2.2 ∧ ¬ TransientCode a.1) (S := fun _ _ => False) ?_ (fun a w1 h => ?_) (fun _ _ h => h))
    · unfold perform
      refine wp_bind (wp_emit ?_)
      apply wp_bind
      simp only [wp, hn, List.nil_append]
      refine wp_bind (wp_mono (hq { w with net := rest, log := w.log ++ [.http url] } hm) (fun a w1 h => ?_) (fun _ _ h => h))
      refine wp_pure ⟨h, ?_⟩
      simp only
      split
      · unfold TransientCode; omega
      · exact hfin
    · obtain ⟨code, http, r1⟩ := a
      have hnt : transient code = false := by
        cases ht : transient code with
        | false => rfl
        | true => exact absurd ((transient_iff _).mp ht) h.2
      simp only [hnt, Bool.not_false, if_true]
      exact wp_pure h.1
  | cons f fs ih =>
    intro m wait w hl hs hn hm
    have hf := hs f (by simp)
    unfold retried
    refine wp_bind (wp_perform_silent hn hf.1 ?_)
    have ht : transient (f url).code = true := (transient_iff _).mpr hf.2
    simp only [ht, Bool.not_true, Bool.false_eq_true, if_false]
    refine wp_bind (wp_emit ?_)
    cases m with
    | zero => simp at hl
    | succ m =>
      simp only
      exact ih m _ { w with net := fs ++ g :: rest, log := (w.log ++ [.http url]) ++ [.sleep wait] } (by simpa using hl) (fun x hx => hs x (by simp [hx])) rfl hm

/-- A request for a URL whose attempts before the last one have no body. -/
theorem wp_httpGet_tries {env : Env} {h : Http} {id : Id} {out : Bytes} {w : World} {fs rest : List (Bytes → CurlRun)} {g : Bytes → CurlRun}
    {Q : Req → Prop} (hid : id.length = 32) (hb : h.base.length < 2 ^ 62) (hm : AllMem w.mem) (hn : w.net = fs ++ g :: rest)
    (ht : Tries (urlOf h id) fs (g (urlOf h id)))
    (hq : ∀ w, AllMem w.mem → wp (deliver env (h.key.map (fun k => env.ks k id)) (g (urlOf h id)).http (freshReq h out) (g (urlOf h id)).frags)
      (fun a _ => Q a.2) (fun _ _ => False) w) :
    wp (httpGet env h id out) (fun a _ => ∃ r, Q r ∧ a.2.1.size = r.size) (fun _ _ => False) w := by
  have hl := urlOf_length h id hid
  unfold httpGet
  have hle : ¬ ((urlOf h id).length + 1 > h.base.length + 80 + 1) := by split at hl <;> omega
  simp only [hle, if_false]
  refine wp_bind (wp_alloc ?_)
  obtain ⟨m1, m2⟩ := hm.alloc (n := (urlOf h id).length + 1) (by split at hl <;> omega)
  rw [m1]
  simp only [Bool.not_true, Bool.false_eq_true, if_false]
  refine wp_bind (wp_mono (wp_retried_tries ht.final hq fs 9 200000 _ ht.few ht.silent hn m2) (fun a w2 k => ?_) (fun _ _ h => h))
  exact wp_pure ⟨_, k, httpJudge_size _ _ _ _ _ _⟩

/-! ### A body of many frames -/

/-- `n` copies of `e`. -/
def copies (e : Bytes) (n : Nat) : Bytes := (List.replicate n e).flatten

theorem copies_length (e : Bytes) (n : Nat) : (copies e n).length = n * e.length := by
  unfold copies
  rw [List.length_flatten, List.map_replicate]
  simp

theorem copies_append (e : Bytes) (m n : Nat) : copies e m ++ copies e n = copies e (m + n) := by
  unfold copies
  rw [← List.flatten_append, List.replicate_append_replicate]

theorem copies_succ (e : Bytes) (n : Nat) : copies e (n + 1) = e ++ copies e n := by
  unfold copies
  rw [List.replicate_succ, List.flatten_cons]

/-- One frame per call is taken off, `k + 1` frames per fragment arrive. -/
theorem pureDeliver_frames {env : Env} {e : Bytes} (hz : ∀ hist room x, env.zstd hist room (e ++ x) = some (e.length, []))
    (he : e.take 4 = zstdMagic) (k : Nat) (m : Nat) : ∀ (v : View) (j : Nat), v.fill = copies e j → v.st ≠ .failed →
    (pureDeliver env (some 200) v (List.replicate m (copies e (k + 1)))).1 = false ∧
    (pureDeliver env (some 200) v (List.replicate m (copies e (k + 1)))).2.st ≠ .failed ∧
    (pureDeliver env (some 200) v (List.replicate m (copies e (k + 1)))).2.fill = copies e (j + m * k) := by
  induction m with
  | zero => intro v j h1 h2; exact ⟨rfl, h2, by simpa [pureDeliver] using h1⟩
  | succ m ih =>
    intro v j h1 h2
    have he4 : 4 ≤ e.length := by
      have := congrArg List.length he
      simp [zstdMagic] at this; omega
    have hx : v.fill ++ copies e (k + 1) = e ++ copies e (j + k) := by
      rw [h1, copies_append, show j + (k + 1) = (j + k) + 1 by omega, copies_succ]
    have hc : pureCb env (some 200) v (copies e (k + 1)) = (true, ⟨.streaming, v.hist ++ [(v.out.length - v.written, e ++ copies e (j + k))],
        v.written + 0, bufWrite v.out v.written [], copies e (j + k)⟩) := by
      unfold pureCb core
      rw [hx, if_neg (by simp), if_neg h2]
      have n1 : ¬ (v.st = .started ∧ (e ++ copies e (j + k)).length < 4) := fun h => by
        have := h.2; rw [List.length_append] at this; omega
      have n2 : ¬ (v.st = .started ∧ (e ++ copies e (j + k)).take 4 ≠ zstdMagic) := fun h => h.2 (by
        rw [List.take_append_of_le_length he4, he])
      rw [if_neg n1, if_neg n2, hz]
      simp only [List.drop_left, List.length_nil]
    rw [List.replicate_succ]
    unfold pureDeliver
    rw [hc]
    simp only
    obtain ⟨i1, i2, i3⟩ := ih ⟨.streaming, v.hist ++ [(v.out.length - v.written, e ++ copies e (j + k))],
        v.written + 0, bufWrite v.out v.written [], copies e (j + k)⟩ (j + k) rfl (by simp)
    refine ⟨i1, i2, ?_⟩
    rw [i3, Nat.add_mul, Nat.one_mul, Nat.add_assoc, Nat.add_comm k]

end Csn.Proof
