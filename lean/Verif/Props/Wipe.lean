import Verif.Model.Wipe
import Verif.Props.Keys
/-
C74: what is left of a key.
-/
namespace Csn.Props
open Csn Csn.Spec Csn.Proof

/-- Nothing but zeros. -/
def Blank (b : Bytes) : Prop := ∀ c ∈ b, c = 0

/-- The buffers have the sizes they are declared with. -/
structure Sized (m : Wipe.Mem) : Prop where
  key : m.key.length = 32
  ctx : m.ctx.length = 32

theorem wipe_blank {n : Nat} {b : Bytes} (h : b.length ≤ n) : Blank (Wipe.wipe n b) := by
  intro c hc
  unfold Wipe.wipe at hc
  rw [List.drop_eq_nil_of_le h, List.append_nil] at hc
  exact (List.mem_replicate.1 hc).2

theorem wipe_length (n : Nat) (b : Bytes) : (Wipe.wipe n b).length = b.length := by
  simp only [Wipe.wipe, List.length_append, List.length_replicate, List.length_drop]; omega

theorem qrAt_length (t : Words) (i j k l : Nat) : (qrAt t i j k l).length = t.length := by
  simp [qrAt]

theorem doubleRound_length (t : Words) : (doubleRound t).length = t.length := by
  simp [doubleRound, qrAt_length]

theorem iter_length (f : Words → Words) (hf : ∀ t, (f t).length = t.length) : ∀ n t, (iter f n t).length = t.length
  | 0, _ => rfl
  | n + 1, t => by rw [iter, iter_length f hf n, hf]

theorem p32leBuf_length : ∀ t : Words, (p32leBuf t).length = 4 * t.length
  | [] => rfl
  | a :: r => by
    have := p32leBuf_length r
    unfold p32leBuf at this ⊢
    rw [List.flatMap_cons, List.length_append, this]
    simp [p32le]
    omega

theorem hchacha_spec (nonce : Bytes) (m : Wipe.Mem) :
    Blank (Wipe.hchacha nonce m).block ∧ (Wipe.hchacha nonce m).subkey.length = 32 ∧ (Wipe.hchacha nonce m).key = m.key ∧
      (Wipe.hchacha nonce m).ctx = m.ctx ∧ (Wipe.hchacha nonce m).text = m.text := by
  have hb : (chacha20Rounds (unp32leBuf (str "expand 32-byte k") 0 4 ++ unp32leBuf m.ctx 0 8 ++ unp32leBuf nonce 0 4)).length = 16 := by
    unfold chacha20Rounds
    rw [iter_length _ doubleRound_length, List.length_append, List.length_append]
    simp only [unp32leBuf, List.length_map, List.length_range]
  unfold Wipe.hchacha
  dsimp only
  generalize chacha20Rounds _ = q at hb ⊢
  refine ⟨wipe_blank (Nat.le_of_eq ((p32leBuf_length _).trans (by rw [hb]))), ?_, rfl, rfl, rfl⟩
  rw [List.length_append, p32leBuf_length, p32leBuf_length, List.length_take, List.length_take, List.length_drop, hb]
  rfl

/-- **C74** (derived keys): whatever OpenSSL does, encrypt_restart leaves neither its copy of the key, nor the derived key, nor the
nonce. -/
theorem C74_restart (reset init : Bool) (nonce : Bytes) (m : Wipe.Mem) :
    Blank (Wipe.restart reset init nonce m).2.block ∧ Blank (Wipe.restart reset init nonce m).2.subkey ∧
      Blank (Wipe.restart reset init nonce m).2.nonce ∧ (Wipe.restart reset init nonce m).2.ctx = m.ctx := by
  obtain ⟨h1, h2, h3, h4, h5⟩ := hchacha_spec (nonce.take 16) m
  refine ⟨h1, ?_, ?_, h4⟩
  · exact wipe_blank (b := (Wipe.hchacha (nonce.take 16) m).subkey) (by rw [h2]; exact Nat.le_refl _)
  · refine wipe_blank (b := ctrNonce nonce) ?_
    simp only [ctrNonce, List.length_append, List.length_replicate, List.length_take]
    omega

theorem C74_close (m : Wipe.Mem) (h : Sized m) : Blank (Wipe.close m).ctx := wipe_blank (by rw [h.ctx]; exact Nat.le_refl _)

theorem cstr_append (a b : Bytes) (h : 0 ∉ a) : cstr (a ++ b) = a ++ cstr b := by
  induction a with
  | nil => rfl
  | cons x r ih =>
    have hx : (x != 0) = true := by
      have : x ≠ 0 := fun e => h (by simp [e])
      simpa using this
    have := ih (fun hm => h (List.mem_cons_of_mem _ hm))
    unfold cstr at this ⊢
    rw [List.cons_append, List.takeWhile_cons, if_pos hx, this]
    rfl

theorem cstr_split (d : Bytes) : 0 ∉ cstr d ∧ ∃ r, d ++ [0] = cstr d ++ 0 :: r := by
  induction d with
  | nil => exact ⟨by simp [cstr], [], rfl⟩
  | cons x r ih =>
    by_cases hx : x = 0
    · subst hx
      exact ⟨by simp [cstr], r ++ [0], by simp [cstr]⟩
    · have hx' : (x != 0) = true := by simpa using hx
      obtain ⟨h1, q, h2⟩ := ih
      have e : cstr (x :: r) = x :: cstr r := by
        unfold cstr
        rw [List.takeWhile_cons, if_pos hx']
      rw [e]
      refine ⟨?_, q, ?_⟩
      · intro hm
        rcases List.mem_cons.1 hm with h | h
        · exact hx h.symm
        · exact h1 h
      · rw [List.cons_append, h2]; rfl

/-- The string in the buffer after `chomp` is the one the model of encrypt_parse_keyspec (C43) works with. -/
theorem chompBuf_cstr (d : Bytes) :
    cstr (Wipe.chompBuf (d ++ [0])) = chomp (cstr d) ∧ ∃ r, Wipe.chompBuf (d ++ [0]) = chomp (cstr d) ++ 0 :: r := by
  obtain ⟨h1, r, h2⟩ := cstr_split d
  have h3 : cstr (d ++ [0]) = cstr d := by
    rw [h2, cstr_append _ _ h1]
    simp [cstr]
  have key : ∀ t b r, 0 ∉ t → b = t ++ 0 :: r → cstr b = t ∧ ∃ r, b = t ++ 0 :: r := by
    intro t b r ht hb
    subst hb
    exact ⟨by rw [cstr_append _ _ ht]; simp [cstr], r, rfl⟩
  unfold Wipe.chompBuf chomp
  rw [h3]
  rcases chompLoop_spec (cstr d) 0 none false with ⟨_, g⟩ | ⟨g, _⟩ | ⟨a, u, v, g1, g2, g3, g4, g5, g6, g7⟩
  · rw [g]
    exact key _ _ r h1 h2
  · cases g
  · rw [g7]
    simp only [Nat.zero_add]
    have h1' : 0 ∉ a := fun h => h1 (by rw [g1]; simp [h])
    obtain ⟨x, u', rfl⟩ : ∃ x u', u = x :: u' := by
      cases u with
      | nil => exact absurd rfl g2
      | cons x u' => exact ⟨x, u', rfl⟩
    have ht : (cstr d).take a.length = a := by rw [g1]; simp
    have hs : (d ++ [0]).set a.length 0 = a ++ 0 :: (u' ++ v ++ 0 :: r) := by
      rw [h2, g1]
      simp
    rw [ht]
    exact key _ _ _ h1' hs

theorem decode_spec (s : Bytes) (m : Wipe.Mem) (h : Sized m) :
    Sized (Wipe.decode s m).2 ∧ ((Wipe.decode s m).1 = false → (Wipe.decode s m).2.key = m.key ∨ Blank (Wipe.decode s m).2.key) ∧
      ((Wipe.decode s m).1 = true → HexOf s (Wipe.decode s m).2.key) ∧
      (Wipe.decode s m).2 = { m with key := (Wipe.decode s m).2.key } := by
  unfold Wipe.decode
  by_cases hl : s.length ≠ 64
  · rw [if_pos hl]
    exact ⟨h, fun _ => Or.inl rfl, nofun, rfl⟩
  · rw [if_neg hl]
    have hl : s.length = 64 := Classical.not_not.1 hl
    obtain ⟨_, _, _, c4, c5, c6⟩ := C44_id_text (List.replicate 32 0) (by simp) s
    rcases hp : parseHex s with ⟨ok, k⟩
    rw [hp] at c4 c5 c6
    have hk : k.length ≤ 32 := by have : k.length ≤ (s.length + 1) / 2 := c5; omega
    have hlen : (k ++ m.key.drop k.length).length = 32 := by rw [List.length_append, List.length_drop, h.key]; omega
    cases ok with
    | true =>
      have hk2 : k.length = 32 := by have : k.length = (s.length + 1) / 2 := c4 rfl; omega
      have he : k ++ m.key.drop k.length = k := by rw [List.drop_eq_nil_of_le (by rw [h.key, hk2]; exact Nat.le_refl _), List.append_nil]
      refine ⟨⟨hlen, h.ctx⟩, nofun, fun _ => ?_, rfl⟩
      dsimp only
      rw [he]
      exact c6 rfl (by omega)
    | false =>
      exact ⟨⟨(wipe_length _ _).trans hlen, h.ctx⟩, fun _ => Or.inr (wipe_blank (Nat.le_of_eq hlen)), nofun, rfl⟩

theorem keyspec_spec (src : Wipe.Source) (m : Wipe.Mem) (h : Sized m) :
    Sized (Wipe.keyspec src m).2 ∧ ((Wipe.keyspec src m).1 = false → (Wipe.keyspec src m).2.key = m.key ∨ Blank (Wipe.keyspec src m).2.key) ∧
      (Wipe.keyspec src m).2 = { m with key := (Wipe.keyspec src m).2.key, text := (Wipe.keyspec src m).2.text } := by
  rcases src with (_ | s) | (_ | d) | d
  · exact ⟨h, fun _ => Or.inl rfl, rfl⟩
  · obtain ⟨h1, h2, _, h3⟩ := decode_spec s m h
    refine ⟨h1, h2, ?_⟩
    have ht : (Wipe.decode s m).2.text = m.text := by rw [h3]
    show (Wipe.decode s m).2 = { m with key := (Wipe.decode s m).2.key, text := (Wipe.decode s m).2.text }
    rw [ht]
    exact h3
  · exact ⟨h, fun _ => Or.inl rfl, rfl⟩
  · have h0 : Sized { m with text := Wipe.chompBuf (d ++ [0]) } := ⟨h.key, h.ctx⟩
    obtain ⟨h1, h2, _, h3⟩ := decode_spec (cstr (Wipe.chompBuf (d ++ [0]))) _ h0
    refine ⟨⟨h1.key, h1.ctx⟩, h2, ?_⟩
    simp only [Wipe.keyspec]
    rw [h3]
  · exact ⟨⟨h.key, h.ctx⟩, fun _ => Or.inl rfl, rfl⟩

theorem keyspec_text (d : Bytes) (m : Wipe.Mem) (h : Sized m) :
    (Wipe.keyspec (.file (some d)) m).2.text = Wipe.wipe (chomp (cstr d)).length (Wipe.chompBuf (d ++ [0])) := by
  have h0 : Sized { m with text := Wipe.chompBuf (d ++ [0]) } := ⟨h.key, h.ctx⟩
  obtain ⟨_, _, _, h3⟩ := decode_spec (cstr (Wipe.chompBuf (d ++ [0]))) _ h0
  simp only [Wipe.keyspec]
  rw [h3]
  show Wipe.wipe (cstr (Wipe.chompBuf (d ++ [0]))).length _ = _
  rw [(chompBuf_cstr d).1]

theorem nil_or_last {α : Type} (l : List α) : l = [] ∨ ∃ a x, l = a ++ [x] := by
  cases l with
  | nil => exact Or.inl rfl
  | cons y r => exact Or.inr ⟨(y :: r).dropLast, (y :: r).getLast (by simp), (List.dropLast_concat_getLast (by simp)).symm⟩

theorem chomp_plain (t u : Bytes) (ht : ∀ c ∈ t, ¬ LineBreak c) (hu : ∀ c ∈ u, LineBreak c) : chomp (t ++ u) = t := by
  obtain ⟨u', h1, h2, h3⟩ : Stripped (t ++ u) (chomp (t ++ u)) := by
    refine (C45_chomp_partial (t ++ u)).1 ?_
    rcases nil_or_last u with rfl | ⟨u, x, rfl⟩
    · left; simpa using ht
    · exact Or.inr ⟨x, by rw [← List.append_assoc, List.getLast?_concat], hu x (by simp)⟩
  generalize chomp (t ++ u) = s at h1 h3
  rcases List.append_eq_append_iff.1 h1 with ⟨a, e1, e2⟩ | ⟨a, e1, e2⟩
  · -- s = t ++ a
    rcases nil_or_last a with rfl | ⟨a, x, rfl⟩
    · simpa using e1
    · refine absurd (hu x (by rw [e2]; simp)) (h3 x ?_)
      rw [e1, ← List.append_assoc, List.getLast?_concat]
  · cases a with
    | nil => simpa using e1.symm
    | cons x a => exact absurd (h2 x (by rw [e2]; simp)) (ht x (by rw [e1]; simp))

/-- Behind the string, the buffer has what the file had there. -/
theorem chompBuf_rest (b : Bytes) (n : Nat) : ∀ c ∈ (Wipe.chompBuf b).drop n, c = 0 ∨ c ∈ b.drop n := by
  intro c hc
  unfold Wipe.chompBuf at hc
  split at hc
  · exact Or.inr hc
  · rename_i q _
    rw [List.drop_set] at hc
    split at hc
    · exact Or.inr hc
    · rcases List.mem_or_eq_of_mem_set hc with h | h
      · exact Or.inr h
      · exact Or.inl h

/-- **C74** (parsing a key): when the key is refused, the caller's buffer has what it had or zeros; of a key file's text the part that was
taken for the key is zeroed, and if the file has no NUL and line breaks only at its end, nothing but zeros and line breaks is left
in the freed buffer.  Missing: see `C74_file_refuted`. -/
theorem C74_keyspec_partial (src : Wipe.Source) (m : Wipe.Mem) (h : Sized m) :
    ((Wipe.keyspec src m).1 = false → (Wipe.keyspec src m).2.key = m.key ∨ Blank (Wipe.keyspec src m).2.key) ∧
    (∀ d, src = .file (some d) →
      Blank ((Wipe.keyspec src m).2.text.take (chomp (cstr d)).length) ∧
      (∀ t u, d = t ++ u → 0 ∉ t → (∀ c ∈ t, ¬ LineBreak c) → (∀ c ∈ u, LineBreak c) →
        ∀ c ∈ (Wipe.keyspec src m).2.text, c = 0 ∨ LineBreak c)) := by
  refine ⟨(keyspec_spec src m h).2.1, ?_⟩
  rintro d rfl
  rw [keyspec_text d m h]
  obtain ⟨_, r, hr⟩ := chompBuf_cstr d
  have hw : Wipe.wipe (chomp (cstr d)).length (Wipe.chompBuf (d ++ [0])) = List.replicate (chomp (cstr d)).length 0 ++ 0 :: r := by
    rw [hr]
    unfold Wipe.wipe
    rw [List.drop_left, List.length_append, Nat.min_eq_left (by omega)]
  rw [hw]
  refine ⟨?_, ?_⟩
  · intro c hc
    rw [List.take_append_of_le_length (by simp), List.take_of_length_le (by simp)] at hc
    exact (List.mem_replicate.1 hc).2
  · rintro t u rfl ht htl hu c hc
    have h0 : 0 ∉ t ++ u := by
      intro hm
      rcases List.mem_append.1 hm with hm | hm
      · exact ht hm
      · rcases hu 0 hm with h | h <;> cases h
    have e : cstr (t ++ u) = t ++ u := by
      have := cstr_append (t ++ u) [] h0
      simpa [cstr] using this
    rw [e, chomp_plain t u htl hu] at hr hc
    rcases List.mem_append.1 hc with hc | hc
    · exact Or.inl (List.mem_replicate.1 hc).2
    · have hd := chompBuf_rest (t ++ u ++ [0]) t.length c (by rw [hr, List.drop_left]; exact hc)
      rcases hd with h | h
      · exact Or.inl h
      · rw [List.append_assoc, List.drop_left] at h
        rcases List.mem_append.1 h with h | h
        · exact Or.inr (hu c h)
        · exact Or.inl (by simpa using h)

/-- The buffers that are not the caller's `key` and not a file's text: each is as it was, or blank. -/
structure Cleared (m m' : Wipe.Mem) : Prop where
  block : m'.block = m.block ∨ Blank m'.block
  subkey : m'.subkey = m.subkey ∨ Blank m'.subkey
  nonce : m'.nonce = m.nonce ∨ Blank m'.nonce

theorem Cleared.refl (m : Wipe.Mem) : Cleared m m := ⟨Or.inl rfl, Or.inl rfl, Or.inl rfl⟩

theorem Cleared.init (m : Wipe.Mem) : Cleared m { m with ctx := m.key } := ⟨Or.inl rfl, Or.inl rfl, Or.inl rfl⟩

theorem Cleared.close (m : Wipe.Mem) : Cleared m (Wipe.close m) := ⟨Or.inl rfl, Or.inl rfl, Or.inl rfl⟩

theorem Cleared.trans {a b c : Wipe.Mem} (h : Cleared a b) (g : Cleared b c) : Cleared a c := by
  refine ⟨?_, ?_, ?_⟩
  · rcases g.block with g | g
    · rw [g]; exact h.block
    · exact Or.inr g
  · rcases g.subkey with g | g
    · rw [g]; exact h.subkey
    · exact Or.inr g
  · rcases g.nonce with g | g
    · rw [g]; exact h.nonce
    · exact Or.inr g

theorem ones_spec : ∀ (l : List Wipe.One) (m : Wipe.Mem), Cleared m (Wipe.ones l m) ∧ (Wipe.ones l m).ctx = m.ctx ∧
    (Wipe.ones l m).key = m.key ∧ (Wipe.ones l m).text = m.text
  | [], m => ⟨Cleared.refl m, rfl, rfl, rfl⟩
  | o :: r, m => by
    have h1 : Cleared m (Wipe.one o m) ∧ (Wipe.one o m).ctx = m.ctx ∧ (Wipe.one o m).key = m.key ∧ (Wipe.one o m).text = m.text := by
      unfold Wipe.one
      split
      · obtain ⟨h1, h2, h3, h4⟩ := C74_restart o.reset o.init o.nonce m
        exact ⟨⟨Or.inr h1, Or.inr h2, Or.inr h3⟩, h4, (hchacha_spec (o.nonce.take 16) m).2.2.1,
          (hchacha_spec (o.nonce.take 16) m).2.2.2.2⟩
      · exact ⟨Cleared.refl m, rfl, rfl, rfl⟩
    obtain ⟨h2, h3, h4, h5⟩ := ones_spec r (Wipe.one o m)
    exact ⟨h1.1.trans h2, h3.trans h1.2.1, h4.trans h1.2.2.1, h5.trans h1.2.2.2⟩

theorem Cleared.keyspec (src : Wipe.Source) (m : Wipe.Mem) (h : Sized m) :
    Cleared m (Wipe.keyspec src m).2 ∧ (Wipe.keyspec src m).2.ctx = m.ctx := by
  have := (keyspec_spec src m h).2.2
  rw [this]
  exact ⟨⟨Or.inl rfl, Or.inl rfl, Or.inl rfl⟩, rfl⟩

/-- **C74** (csn-tool crypt): however many files are converted and whatever fails, at the end the intermediate buffers are as they were before
or blank, and so is the context; if no key came of the specification, `key` is, too.  Missing: `key` otherwise (`C74_refuted`). -/
theorem C74_crypt_partial (src : Wipe.Source) (new : Bool) (l : List Wipe.One) (m : Wipe.Mem) (h : Sized m) :
    Cleared m (Wipe.doCrypt src new l m) ∧
    ((Wipe.doCrypt src new l m).ctx = m.ctx ∨ Blank (Wipe.doCrypt src new l m).ctx) ∧
    ((Wipe.keyspec src m).1 = false → (Wipe.doCrypt src new l m).key = m.key ∨ Blank (Wipe.doCrypt src new l m).key) := by
  obtain ⟨h1, h2, _⟩ := keyspec_spec src m h
  obtain ⟨h4, h5⟩ := Cleared.keyspec src m h
  unfold Wipe.doCrypt
  generalize Wipe.keyspec src m = r at h1 h2 h4 h5 ⊢
  obtain ⟨ok, m1⟩ := r
  cases ok with
  | false => exact ⟨h4, Or.inl h5, h2⟩
  | true =>
    cases new with
    | false => exact ⟨h4, Or.inl h5, nofun⟩
    | true =>
      obtain ⟨g1, g2, _⟩ := ones_spec l { m1 with ctx := m1.key }
      refine ⟨h4.trans ((Cleared.init m1).trans (g1.trans (Cleared.close _))), Or.inr ?_, nofun⟩
      refine wipe_blank (b := (Wipe.ones l { m1 with ctx := m1.key }).ctx) ?_
      rw [g2]
      exact Nat.le_of_eq h1.key

theorem params_spec : ∀ (ps : List (Option (Wipe.Source × Bool))) (m : Wipe.Mem), Sized m →
    Cleared m (Wipe.params ps m).2 ∧ Sized (Wipe.params ps m).2
  | [], m, h => ⟨Cleared.refl m, h⟩
  | none :: _, m, h => ⟨Cleared.refl m, h⟩
  | some (src, new) :: r, m, h => by
    obtain ⟨h1, h2, _⟩ := keyspec_spec src m h
    obtain ⟨h4, h5⟩ := Cleared.keyspec src m h
    simp only [Wipe.params]
    generalize Wipe.keyspec src m = k at h1 h2 h4 h5 ⊢
    obtain ⟨ok, m1⟩ := k
    cases ok with
    | false => exact ⟨h4, h1⟩
    | true =>
      cases new with
      | false => exact ⟨h4, h1⟩
      | true =>
        obtain ⟨g1, g2⟩ := params_spec r { m1 with ctx := m1.key } ⟨h1.key, h1.key⟩
        exact ⟨h4.trans ((Cleared.init m1).trans g1), g2⟩

/-- **C74** (stores on the network): the intermediate buffers are always as they were or blank, and the freed store of a constructor that had
succeeded has no key.  Missing: stores whose constructor fails (`C74_store_refuted`), and `key` of store_handle_params. -/
theorem C74_store_partial (ps : List (Option (Wipe.Source × Bool))) (rest : Bool) (l : List Wipe.One) (m : Wipe.Mem) (h : Sized m) :
    Cleared m (Wipe.httpLife ps rest l m) ∧
    ((Wipe.params ps m).1 = true → rest = true → ps ≠ [] → Blank (Wipe.httpLife ps rest l m).ctx) := by
  obtain ⟨h1, h2⟩ := params_spec ps m h
  unfold Wipe.httpLife
  generalize Wipe.params ps m = r at h1 h2 ⊢
  obtain ⟨ok, m1⟩ := r
  cases ok with
  | false => exact ⟨h1, nofun⟩
  | true =>
    cases rest with
    | false => exact ⟨h1, fun _ => nofun⟩
    | true =>
      by_cases hp : ps = []
      · subst hp
        exact ⟨h1, fun _ _ e => absurd rfl e⟩
      · obtain ⟨g1, g2, _⟩ := ones_spec l m1
        simp only [Bool.not_true, Bool.false_eq_true, if_false, if_neg hp]
        refine ⟨h1.trans (g1.trans (Cleared.close _)), fun _ _ _ => ?_⟩
        refine wipe_blank (b := (Wipe.ones l m1).ctx) ?_
        rw [g2]
        exact Nat.le_of_eq h2.ctx

/-! ### What does remain -/

/-- Fresh buffers. -/
def noKeys : Wipe.Mem := ⟨List.replicate 64 0, List.replicate 32 0, List.replicate 16 0, List.replicate 32 0, List.replicate 32 0, []⟩

/-- The text of a key, and the key. -/
def aText : Bytes := (List.replicate 32 (str "4f")).flatten
def aKey : Bytes := List.replicate 32 0x4f

theorem noKeys_sized : Sized noKeys := ⟨rfl, rfl⟩

/-- **C74** as claimed is false: after a successful run do_crypt leaves the key in `key` (csn-tool.c:134). -/
theorem C74_refuted : ∃ src l, Sized noKeys ∧ HexOf aText aKey ∧ src = .file (some (aText ++ str "\n")) ∧
    (Wipe.doCrypt src true l noKeys).key = aKey ∧ ¬ Blank (Wipe.doCrypt src true l noKeys).key :=
  ⟨.file (some (aText ++ str "\n")), [⟨true, true, true, List.replicate 24 7⟩], noKeys_sized,
    (parseHex_iff (n := 32) (by decide +kernel) aKey).1 (by decide +kernel), rfl, by decide +kernel, fun h => by
      have hk : (Wipe.doCrypt (.file (some (aText ++ str "\n"))) true [⟨true, true, true, List.replicate 24 7⟩] noKeys).key = aKey := by
        decide +kernel
      rw [hk] at h
      exact absurd (h 0x4f (by decide)) (by decide)⟩

/-- A store whose constructor fails behind its parameters, or at a second parameter, is freed with the key in it. -/
theorem C74_store_refuted :
    (Wipe.httpLife [some (.given (some aText), true)] false [] noKeys).ctx = aKey ∧
    (Wipe.httpLife [some (.given (some aText), true), none] true [] noKeys).ctx = aKey := by
  constructor <;> decide +kernel

/-- Key files: what stands behind a line break that is not the last, and a file that could not be read to its end, stay in freed memory. -/
theorem C74_file_refuted :
    (Wipe.keyspec (.file (some (str "old key\n" ++ aText))) noKeys).2.text.drop 8 = aText ++ [0] ∧
    (Wipe.keyspec (.broken (aText.take 60)) noKeys).2.text = aText.take 60 := by
  constructor <;> decide +kernel

/-! ### Examples -/

/-- A run with three files, the second of which fails before the cipher is set up: everything but `key` is blank. -/
example : (Wipe.doCrypt (.file (some (aText ++ str "\r\n"))) true
    [⟨true, true, true, List.replicate 24 7⟩, ⟨false, true, true, []⟩, ⟨true, true, false, List.replicate 24 9⟩] noKeys) =
    { noKeys with key := aKey, text := List.replicate 65 0 ++ str "\n" ++ [0] } := by decide +kernel

/-- Before they are wiped, the buffers do have the key. -/
example : (Wipe.init true (Wipe.keyspec (.given (some aText)) noKeys).2).2.ctx = aKey := by decide +kernel

/-- A key with a wrong digit at the end: what was decoded is zeroed again. -/
example : (Wipe.keyspec (.given (some (aText.take 63 ++ str "x"))) { noKeys with key := List.replicate 32 9 }).2.key = List.replicate 32 0 := by
  decide +kernel

end Csn.Props
