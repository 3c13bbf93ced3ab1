import Verif.Proof.HttpPure
/-
A body that is a compressed frame is decoded whatever its fragmentation.
-/
namespace Csn.Proof
open Csn Spec

/-- The request after the prefix `pre` of frame `f` of `c` has been delivered. -/
structure GoodV (f c : Bytes) (I : List (Nat × Bytes) → Nat → Nat → Prop) (pre : Bytes) (v : View) : Prop where
  pos : ∃ i, i ≤ pre.length ∧ v.fill = pre.drop i ∧
    ((v.st = .started ∧ i = 0 ∧ v.hist = [] ∧ v.written = 0 ∧ pre.length < 4) ∨ (v.st = .streaming ∧ I v.hist i v.written))
  written : v.written ≤ c.length
  out : v.out.take v.written = c.take v.written
  room : c.length ≤ v.out.length
  done : pre = f → v.st = .streaming ∧ v.written = c.length

theorem take_bufWrite {out c p : Bytes} {k : Nat} (h : out.take k = c.take k) (hk : k ≤ c.length) (hp : p <+: c.drop k)
    (hl : c.length ≤ out.length) :
    (bufWrite out k p).take (k + p.length) = c.take (k + p.length) ∧ k + p.length ≤ c.length ∧ (bufWrite out k p).length = out.length := by
  have h1 := hp.length_le
  simp only [List.length_drop] at h1
  obtain ⟨t, ht⟩ := hp
  refine ⟨?_, by omega, bufWrite_len _ _ _ (by omega)⟩
  unfold bufWrite
  rw [h]
  have hlen : (c.take k).length = k := by simp; omega
  have e : c = c.take k ++ (p ++ t) := by rw [ht, List.take_append_drop]
  have e1 : (c.take k ++ p ++ out.drop (k + p.length)).take (k + p.length) = c.take k ++ p := by
    rw [List.take_append_of_le_length (by simp [hlen])]
    exact List.take_of_length_le (by simp [hlen])
  rw [e1]
  conv => rhs; rw [e, ← List.append_assoc]
  rw [List.take_append_of_le_length (by simp [hlen])]
  exact (List.take_of_length_le (by simp [hlen])).symm

theorem pureCb_good {env : Env} {f c : Bytes} {I : List (Nat × Bytes) → Nat → Nat → Prop} (hf : FrameOf env.zstd f c I)
    (hm : f.take 4 = zstdMagic) {pre frag post : Bytes} {v : View} (hv : GoodV f c I pre v) (he : f = pre ++ frag ++ post) (hne : frag ≠ []) :
    (pureCb env (some 200) v frag).1 = true ∧ GoodV f c I (pre ++ frag) (pureCb env (some 200) v frag).2 := by
  obtain ⟨⟨i, i1, i2, i3⟩, h2, h3, h4, h5⟩ := hv
  have hlen : 0 < frag.length := List.length_pos_iff.mpr hne
  have hf4 : 4 ≤ f.length := by
    have := congrArg List.length hm
    simp [zstdMagic] at this; omega
  have hx : v.fill ++ frag = (pre ++ frag).drop i := by rw [i2, List.drop_append_of_le_length i1]
  have hxp : (pre ++ frag).drop i <+: f.drop i := by
    rw [he, List.drop_append_of_le_length (l₁ := pre ++ frag) (by simp only [List.length_append]; omega)]
    exact List.prefix_append _ _
  have hxne : (pre ++ frag).drop i ≠ [] := by
    intro h
    have := congrArg List.length h
    simp at this; omega
  have hxeq : pre ++ frag = f → (pre ++ frag).drop i = f.drop i := fun h => by rw [h]
  have hst : v.st ≠ .failed := by rcases i3 with h | h <;> rw [h.1] <;> simp
  unfold pureCb
  rw [if_neg (by simp), if_neg hst, hx]
  -- the decompressor step
  have hstep : I v.hist i v.written → (v.st = .started → ¬ ((pre ++ frag).drop i).length < 4 ∧ ((pre ++ frag).drop i).take 4 = zstdMagic) →
      ∃ k p, core env v ((pre ++ frag).drop i) = some (k, .streaming, v.hist ++ [(v.out.length - v.written, (pre ++ frag).drop i)], v.written + p.length, bufWrite v.out v.written p) ∧
        GoodV f c I (pre ++ frag) ⟨.streaming, v.hist ++ [(v.out.length - v.written, (pre ++ frag).drop i)], v.written + p.length, bufWrite v.out v.written p, ((pre ++ frag).drop i).drop k⟩ := by
    intro hI hs
    obtain ⟨k, p, s1, s2, s3, s4, s5⟩ := hf.step v.hist i v.written _ (v.out.length - v.written) hI hxne hxp (by omega)
    obtain ⟨t1, t2, t3⟩ := take_bufWrite h3 h2 s3 h4
    refine ⟨k, p, ?_, ⟨⟨i + k, ?_, ?_, Or.inr ⟨rfl, s4⟩⟩, t2, t1, by rw [t3]; exact h4, ?_⟩⟩
    · unfold core
      have n1 : ¬ (v.st = .started ∧ ((pre ++ frag).drop i).length < 4) := fun h => (hs h.1).1 h.2
      have n2 : ¬ (v.st = .started ∧ ((pre ++ frag).drop i).take 4 ≠ zstdMagic) := fun h => h.2 (hs h.1).2
      rw [if_neg n1, if_neg n2, s1]
    · simp only [List.length_append, List.length_drop] at s2 ⊢; omega
    · simp only [List.drop_drop]
    · intro hp
      obtain ⟨_, e2⟩ := s5 (hxeq hp)
      refine ⟨rfl, ?_⟩
      simp only [e2, List.length_drop]; omega
  rcases i3 with ⟨j1, j2, j3, j4, j5⟩ | ⟨j1, j2⟩
  · subst j2
    by_cases hsmall : (pre ++ frag).length < 4
    · have hc : core env v ((pre ++ frag).drop 0) = some (0, v.st, v.hist, v.written, v.out) := by
        unfold core
        rw [if_pos ⟨j1, by simpa using hsmall⟩]
      rw [hc]
      refine ⟨rfl, ⟨0, Nat.zero_le _, rfl, Or.inl ⟨j1, rfl, j3, j4, hsmall⟩⟩, h2, h3, h4, ?_⟩
      intro h
      rw [h] at hsmall; omega
    · have hI : I v.hist 0 v.written := by rw [j3, j4]; exact hf.init
      obtain ⟨k, p, c1, c2⟩ := hstep hI (fun _ => ⟨by simpa using hsmall, by
        rw [List.drop_zero, ← hm, he]
        rw [List.take_append_of_le_length (l₁ := pre ++ frag) (by omega)]⟩)
      rw [c1]
      exact ⟨rfl, c2⟩
  · obtain ⟨k, p, c1, c2⟩ := hstep j2 (fun h => by rw [j1] at h; cases h)
    rw [c1]
    exact ⟨rfl, c2⟩

theorem pureDeliver_good {env : Env} {f c : Bytes} {I : List (Nat × Bytes) → Nat → Nat → Prop} (hf : FrameOf env.zstd f c I)
    (hm : f.take 4 = zstdMagic) (fs : List Bytes) : ∀ (pre : Bytes) (v : View), GoodV f c I pre v → f = pre ++ fs.flatten →
    (∀ x ∈ fs, x ≠ []) →
    (pureDeliver env (some 200) v fs).1 = false ∧ GoodV f c I f (pureDeliver env (some 200) v fs).2 := by
  induction fs with
  | nil =>
    intro pre v hv he _
    have : pre = f := by rw [he]; simp
    rw [this] at hv
    exact ⟨rfl, hv⟩
  | cons x fs ih =>
    intro pre v hv he hne
    have he' : f = pre ++ x ++ fs.flatten := by rw [he]; simp
    obtain ⟨h1, h2⟩ := pureCb_good hf hm hv he' (hne x (by simp))
    unfold pureDeliver
    generalize pureCb env (some 200) v x = p at h1 h2
    obtain ⟨b, v1⟩ := p
    simp only at h1 h2
    subst h1
    exact ih _ v1 h2 he' (fun y hy => hne y (by simp [hy]))

theorem decFrags_flatten (ks : Option (Nat → UInt8)) (fs : List Bytes) : ∀ pos, (decFrags ks pos fs).flatten = incoming ks pos fs.flatten := by
  induction fs with
  | nil => intro pos; simp [decFrags, incoming_nil]
  | cons f fs ih =>
    intro pos
    simp only [decFrags, List.flatten_cons, ih]
    rw [incoming_append ks pos (pos + f.length) f fs.flatten (fun _ => rfl)]

theorem xorFrom_mapIdx (ks : Nat → UInt8) (d : Bytes) : ∀ pos, xorFrom ks pos d = d.mapIdx (fun i x => x ^^^ ks (pos + i)) := by
  induction d with
  | nil => intro pos; rfl
  | cons x d ih =>
    intro pos
    simp only [xorFrom, List.mapIdx_cons, ih, Nat.add_zero, List.cons.injEq, true_and]
    congr 1
    funext i y
    rw [show pos + 1 + i = pos + (i + 1) by omega]

theorem unmask_eq (ks : Option (Nat → UInt8)) (d : Bytes) : unmask ks d = incoming ks 0 d := by
  cases ks with
  | none => rfl
  | some k => simp only [unmask, incoming, xorFrom_mapIdx, Nat.zero_add]

/-- Two lists of pieces of the same lengths with the same contents are the same. -/
theorem pieces_unique : ∀ (ps qs : List Bytes), ps.map List.length = qs.map List.length → ps.flatten = qs.flatten → ps = qs := by
  intro ps
  induction ps with
  | nil => intro qs h _; cases qs with
    | nil => rfl
    | cons q qs => simp at h
  | cons p ps ih =>
    intro qs h hf
    cases qs with
    | nil => simp at h
    | cons q qs =>
      simp only [List.map_cons, List.cons.injEq] at h
      rw [List.flatten_cons, List.flatten_cons] at hf
      obtain ⟨rfl, h2⟩ := List.append_inj hf h.1
      rw [ih qs h.2 h2]

theorem decFrags_lengths (ks : Option (Nat → UInt8)) (fs : List Bytes) : ∀ pos, (decFrags ks pos fs).map List.length = fs.map List.length := by
  induction fs with
  | nil => intro pos; rfl
  | cons f fs ih => intro pos; simp only [decFrags, List.map_cons, ih, incoming_length]

theorem decFrags_ne (ks : Option (Nat → UInt8)) (fs : List Bytes) : ∀ pos, (∀ x ∈ fs, x ≠ []) → ∀ x ∈ decFrags ks pos fs, x ≠ [] := by
  induction fs with
  | nil => intro pos _ x hx; simp [decFrags] at hx
  | cons f fs ih =>
    intro pos h x hx
    simp only [decFrags, List.mem_cons] at hx
    rcases hx with hx | hx
    · rw [hx]
      intro h'
      have := congrArg List.length h'
      rw [incoming_length] at this
      exact h f (by simp) (List.length_eq_zero_iff.mp this)
    · exact ih _ (fun y hy => h y (by simp [hy])) x hx

end Csn.Proof
