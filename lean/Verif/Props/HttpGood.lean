import Verif.Proof.HttpFrame
import Verif.Props.Http
/-
C21, C23, C26: fetching chunks from HTTP stores.
-/
namespace Csn.Props
open Csn Spec Proof

/-- A chunk body in any fragmentation, plain or encrypted, after silent transient failures. -/
theorem wp_httpGet_good {env : Env} (hz : Sane env) {h : Http} {out c f : Bytes} {w : World} {fs rest : List (Bytes → CurlRun)}
    {g : Bytes → CurlRun} {I : List (Nat × Bytes) → Nat → Nat → Prop} (hf : FrameOf env.zstd f c I) (hm4 : f.take 4 = zstdMagic)
    (hid : (env.H c).length = 32) (hc : c.length ≤ out.length) (herr : h.err ≤ 10) (hm : AllMem w.mem) (hb : h.base.length < 2 ^ 62)
    (hn : w.net = fs ++ g :: rest)
    (ht : Tries (chunkUrl h.base h.key.isSome (env.H c)) fs (g (chunkUrl h.base h.key.isSome (env.H c))))
    (hsz : h.size + f.length < 2 ^ 63)
    (hrun : (g (chunkUrl h.base h.key.isSome (env.H c))).code = 0 ∧ (g (chunkUrl h.base h.key.isSome (env.H c))).http = some 200)
    (hbody : incoming (h.key.map (fun k => env.ks k (env.H c))) 0 (g (chunkUrl h.base h.key.isSome (env.H c))).frags.flatten = f) :
    wp (httpGet env h (env.H c) out)
      (fun a w' => a.1 = some c.length ∧ a.2.2.take c.length = c ∧ a.2.1.err = 0 ∧ w'.net = rest)
      (fun _ _ => False) w := by
  have hl : (g (chunkUrl h.base h.key.isSome (env.H c))).frags.flatten.length = f.length := by
    rw [← hbody, incoming_length]
  refine wp_mono (wp_httpGet_pure hz hid herr hm hb hn ht (by omega)) (fun a w' g => ?_) (fun _ _ h => h)
  obtain ⟨p, hp, v, hv, g1, g2, g3, g4, g5, g6, g7, g8⟩ := g
  have hgood := pureDeliver_good hf hm4 (decFrags (h.key.map (fun k => env.ks k (env.H c))) 0 (_)) [] ⟨.started, [], 0, out, []⟩
    ⟨⟨0, Nat.le_refl _, rfl, Or.inl ⟨rfl, rfl, rfl, rfl, by simp⟩⟩, Nat.zero_le _, by simp, hc, by
      intro h
      have := congrArg List.length hm4
      rw [← h] at this
      simp [zstdMagic] at this⟩
    (by rw [decFrags_flatten, List.nil_append]; exact hbody.symm)
    (decFrags_ne _ _ _ (fun x hx => (ht.frags x hx).1))
  rw [hrun.2] at hp hv
  rw [← hp] at hgood
  obtain ⟨k1, k2⟩ := hgood
  obtain ⟨k3, k4⟩ := k2.done rfl
  rw [k1, hrun.1, k3] at hv
  simp only [Bool.false_eq_true, if_false, decide_true] at hv
  have hv' : v = .processed := by rw [hv]; rfl
  have hout : p.2.out.take p.2.written = c := by rw [k2.out, k4, List.take_length]
  rw [hv'] at g1 g2
  refine ⟨?_, ?_, g2, g7⟩
  · rw [g1]
    simp only [resultOf]
    rw [hout, if_pos rfl, k4]
  · rw [g5, ← k4]; exact hout

/-- C21: if the server answers 200 with a body that is a zstd frame of a chunk with the requested ID, an HTTP
store in any state returns exactly that chunk, whatever the fragmentation of the body.  `c.length` bytes are
returned; `FrameOf` says what the decompressor has to do with pieces of a frame. -/
theorem C21_fragmentation_irrelevant {env : Env} (hz : Sane env) {h : Http} (hplain : h.key = none) {out c f : Bytes} {w : World}
    {rest : List (Bytes → CurlRun)} {g : Bytes → CurlRun} {I : List (Nat × Bytes) → Nat → Nat → Prop}
    (hframe : FrameOf env.zstd f c I) (hmagic : f.take 4 = [0x28, 0xb5, 0x2f, 0xfd])
    (hid : (env.H c).length = 32) (hroom : c.length ≤ out.length) (herr : h.err ≤ 10)
    (hmem : AllMem w.mem) (hb : h.base.length < 2 ^ 62) (hsz : h.size + f.length < 2 ^ 63)
    (hnet : w.net = g :: rest) (frags : List Bytes) (hrun : g (chunkUrl h.base false (env.H c)) = ⟨frags, 0, some 200⟩)
    (hfrags : ∀ x ∈ frags, x ≠ [] ∧ x.length < 2 ^ 32) (hbody : frags.flatten = f) :
    wp (httpGet env h (env.H c) out)
      (fun a w' => a.1 = some c.length ∧ a.2.2.take c.length = c ∧ a.2.1.err = 0 ∧ w'.net = rest)
      (fun _ _ => False) w := by
  have hk : h.key.isSome = false := by rw [hplain]; rfl
  refine wp_httpGet_good hz hframe hmagic hid hroom herr hmem hb (fs := []) hnet ?_ hsz ?_ ?_
  · rw [hk, hrun]
    exact ⟨by simp, by simp, hfrags, by unfold TransientCode; simp⟩
  · rw [hk, hrun]; exact ⟨rfl, rfl⟩
  · rw [hk, hrun, hplain]; exact hbody

/-- C23 for failures that happen before any part of the body has been received: up to nine such transient
failures are followed by an attempt that delivers the whole chunk; then the store returns the chunk.  Missing:
failures in the middle of the body (refuted below). -/
theorem C23_retry_succeeds_partial {env : Env} (hz : Sane env) {h : Http} {out c f : Bytes} {w : World}
    {fs rest : List (Bytes → CurlRun)} {g : Bytes → CurlRun} {I : List (Nat × Bytes) → Nat → Nat → Prop}
    (hframe : FrameOf env.zstd f c I) (hmagic : f.take 4 = [0x28, 0xb5, 0x2f, 0xfd])
    (hid : (env.H c).length = 32) (hroom : c.length ≤ out.length) (herr : h.err ≤ 10)
    (hmem : AllMem w.mem) (hb : h.base.length < 2 ^ 62) (hsz : h.size + f.length < 2 ^ 63)
    (hnet : w.net = fs ++ g :: rest) (hfew : fs.length ≤ 9)
    (hfail : ∀ t ∈ fs, (t (chunkUrl h.base h.key.isSome (env.H c))).frags = [] ∧ TransientCode (t (chunkUrl h.base h.key.isSome (env.H c))).code)
    (frags : List Bytes) (hrun : g (chunkUrl h.base h.key.isSome (env.H c)) = ⟨frags, 0, some 200⟩)
    (hfrags : ∀ x ∈ frags, x ≠ [] ∧ x.length < 2 ^ 32)
    (hbody : unmask (h.key.map (fun k => env.ks k (env.H c))) frags.flatten = f) :
    wp (httpGet env h (env.H c) out)
      (fun a w' => a.1 = some c.length ∧ a.2.2.take c.length = c ∧ a.2.1.err = 0 ∧ w'.net = rest)
      (fun _ _ => False) w := by
  refine wp_httpGet_good hz hframe hmagic hid hroom herr hmem hb (fs := fs) hnet ?_ hsz ?_ ?_
  · exact ⟨hfew, hfail, by rw [hrun]; exact hfrags, by rw [hrun]; unfold TransientCode; simp⟩
  · rw [hrun]; exact ⟨rfl, rfl⟩
  · rw [hrun]; rw [unmask_eq] at hbody; exact hbody

theorem xorFrom_xorFrom (ks : Nat → UInt8) (d : Bytes) : ∀ pos, xorFrom ks pos (xorFrom ks pos d) = d := by
  induction d with
  | nil => intro pos; rfl
  | cons x d ih =>
    intro pos
    simp only [xorFrom, ih, List.cons.injEq, and_true]
    rw [UInt8.xor_assoc, UInt8.xor_self, UInt8.xor_zero]

/-- C26: an encrypted chunk file, sent in any fragmentation, is returned by a store with the right key like
the plain file, sent in any fragmentation, by a store without key. -/
theorem C26_encrypted_like_plain {env : Env} (hz : Sane env) {h : Http} (hplain : h.key = none) (k : Bytes) {out c f : Bytes} {w w' : World}
    {rest rest' : List (Bytes → CurlRun)} {g g' : Bytes → CurlRun} {I : List (Nat × Bytes) → Nat → Nat → Prop}
    (hframe : FrameOf env.zstd f c I) (hmagic : f.take 4 = [0x28, 0xb5, 0x2f, 0xfd])
    (hid : (env.H c).length = 32) (hroom : c.length ≤ out.length) (herr : h.err ≤ 10)
    (hmem : AllMem w.mem) (hmem' : AllMem w'.mem) (hb : h.base.length < 2 ^ 62) (hsz : h.size + f.length < 2 ^ 63)
    (hnet : w.net = g :: rest) (hnet' : w'.net = g' :: rest')
    (frags frags' : List Bytes)
    (hrun : g (chunkUrl h.base false (env.H c)) = ⟨frags, 0, some 200⟩)
    (hrun' : g' (chunkUrl h.base true (env.H c)) = ⟨frags', 0, some 200⟩)
    (hfrags : ∀ x ∈ frags, x ≠ [] ∧ x.length < 2 ^ 32) (hfrags' : ∀ x ∈ frags', x ≠ [] ∧ x.length < 2 ^ 32)
    (hbody : frags.flatten = f) (hbody' : frags'.flatten = unmask (some (env.ks k (env.H c))) f) :
    wp (httpGet env h (env.H c) out)
      (fun a _ => a.1 = some c.length ∧ a.2.2.take c.length = c ∧ a.2.1.err = 0) (fun _ _ => False) w ∧
    wp (httpGet env { h with key := some k } (env.H c) out)
      (fun a _ => a.1 = some c.length ∧ a.2.2.take c.length = c ∧ a.2.1.err = 0) (fun _ _ => False) w' := by
  refine ⟨wp_mono (C21_fragmentation_irrelevant hz hplain hframe hmagic hid hroom herr hmem hb hsz hnet frags hrun hfrags hbody)
    (fun a w' h => ⟨h.1, h.2.1, h.2.2.1⟩) (fun _ _ h => h), ?_⟩
  refine wp_mono (wp_httpGet_good (h := { h with key := some k }) hz hframe hmagic hid hroom herr hmem' hb (fs := []) hnet' ?_ hsz ?_ ?_)
    (fun a w' h => ⟨h.1, h.2.1, h.2.2.1⟩) (fun _ _ h => h)
  · simp only [Option.isSome_some]
    rw [hrun']
    exact ⟨by simp, by simp, hfrags', by unfold TransientCode; simp⟩
  · simp only [Option.isSome_some]
    rw [hrun']; exact ⟨rfl, rfl⟩
  · simp only [Option.isSome_some, Option.map_some]
    rw [hrun', hbody', unmask_eq]
    exact xorFrom_xorFrom _ _ _

theorem decFrags_decFrags (ks : Nat → UInt8) (fs : List Bytes) : ∀ pos, decFrags (some ks) pos (decFrags (some ks) pos fs) = fs := by
  induction fs with
  | nil => intro pos; rfl
  | cons f fs ih =>
    intro pos
    have : (incoming (some ks) pos f).length = f.length := incoming_length _ _ _
    simp only [decFrags, this, ih, List.cons.injEq, and_true]
    exact xorFrom_xorFrom _ _ _

/-- C26 for arbitrary responses (also broken or wrong ones, any status and any error code) and an arbitrary
decompressor: if the server sends, instead of the fragments of the plain response, the same pieces
encrypted, the request has the same result, the same output buffer and the same error count. -/
theorem C26_same_outcome {env : Env} (hz : Sane env) {h : Http} (hplain : h.key = none) (k : Bytes) {id : Id} (hid : id.length = 32)
    {out : Bytes} {w w' : World} {rest rest' : List (Bytes → CurlRun)} {g g' : Bytes → CurlRun} (herr : h.err ≤ 10)
    (hmem : AllMem w.mem) (hmem' : AllMem w'.mem) (hb : h.base.length < 2 ^ 62) (run : CurlRun) (hcode : ¬ TransientCode run.code)
    (hsz : h.size + run.frags.flatten.length < 2 ^ 63) (hnet : w.net = g :: rest) (hnet' : w'.net = g' :: rest')
    (hfrags : ∀ x ∈ run.frags, x ≠ [] ∧ x.length < 2 ^ 32)
    (hrun : g (chunkUrl h.base false id) = run)
    (pieces : List Bytes) (hlens : pieces.map List.length = run.frags.map List.length)
    (hmask : pieces.flatten = unmask (some (env.ks k id)) run.frags.flatten)
    (hrun' : g' (chunkUrl h.base true id) = { run with frags := pieces }) :
    ∃ res err out', wp (httpGet env h id out) (fun a _ => a.1 = res ∧ a.2.1.err = err ∧ a.2.2 = out') (fun _ _ => False) w ∧
      wp (httpGet env { h with key := some k } id out) (fun a _ => a.1 = res ∧ a.2.1.err = err ∧ a.2.2 = out') (fun _ _ => False) w' := by
  have hk : h.key.isSome = false := by rw [hplain]; rfl
  obtain rfl := pieces_unique pieces (decFrags (some (env.ks k id)) 0 run.frags) (by rw [hlens, decFrags_lengths])
    (by rw [hmask, unmask_eq, decFrags_flatten])
  have hfl : (decFrags (some (env.ks k id)) 0 run.frags).flatten.length = run.frags.flatten.length := by
    rw [decFrags_flatten, incoming_length]
  have hd : ∀ (fs : List Bytes) pos, (∀ x ∈ fs, x ≠ [] ∧ x.length < 2 ^ 32) → ∀ x ∈ decFrags (some (env.ks k id)) pos fs, x ≠ [] ∧ x.length < 2 ^ 32 := by
    intro fs
    induction fs with
    | nil => intro pos _ x hx; simp [decFrags] at hx
    | cons f fs ih =>
      intro pos h x hx
      simp only [decFrags, List.mem_cons] at hx
      rcases hx with hx | hx
      · have hl : x.length = f.length := by rw [hx, incoming_length]
        have := h f (by simp)
        refine ⟨?_, by omega⟩
        intro h'
        rw [h'] at hl
        exact this.1 (List.length_eq_zero_iff.mp hl.symm)
      · exact ih _ (fun y hy => h y (by simp [hy])) x hx
  have p1 := wp_httpGet_pure hz (h := h) (out := out) (fs := []) hid herr hmem hb hnet (by
    rw [hk, hrun]; exact ⟨by simp, by simp, hfrags, hcode⟩) (by rw [hk, hrun]; exact hsz)
  have p2 := wp_httpGet_pure hz (h := { h with key := some k }) (out := out) (fs := []) hid herr hmem' hb hnet' (by
    simp only [Option.isSome_some]
    rw [hrun']; exact ⟨by simp, by simp, hd _ _ hfrags, hcode⟩) (by
    simp only [Option.isSome_some]
    rw [hrun']; simp only [hfl]; exact hsz)
  rw [hk, hrun, hplain] at p1
  simp only [Option.isSome_some, Option.map_some, Option.map_none, decFrags_none] at p1 p2
  rw [hrun'] at p2
  simp only [decFrags_decFrags] at p2
  generalize pureDeliver env run.http ⟨.started, [], 0, out, []⟩ run.frags = pd at p1 p2
  generalize hvd : verdict (if pd.1 = true then 23 else run.code) run.http (decide (pd.2.st = .streaming)) = vd
  refine ⟨resultOf env.H h.err id pd.2.written pd.2.out vd, errAfter h.err vd, pd.2.out, wp_mono p1 (fun a w1 q => ?_) (fun _ _ h => h), wp_mono p2 (fun a w1 q => ?_) (fun _ _ h => h)⟩
  · obtain ⟨p, hp, v, hv, q1, q2, _, _, q5, _⟩ := q
    subst hp
    rw [hvd] at hv
    subst hv
    exact ⟨q1, q2, q5⟩
  · obtain ⟨p, hp, v, hv, q1, q2, _, _, q5, _⟩ := q
    subst hp
    rw [hvd] at hv
    subst hv
    exact ⟨q1, q2, q5⟩

/-! ### Concrete cases -/

/-- The toy format's frames are frames. -/
theorem toy_frame (c : Bytes) : FrameOf toyZstd ([0x28, 0xb5, 0x2f, 0xfd] ++ c) c
    (fun hist i o => (hist.map (·.2.length)).sum = i ∧ i ≤ 4 + c.length ∧ o = i - 4) := by
  refine ⟨⟨rfl, by omega, rfl⟩, ?_⟩
  intro hist i o x room hI hx hp hroom
  obtain ⟨h1, h2, h3⟩ := hI
  have hlen := hp.length_le
  simp only [List.length_drop, List.length_append, List.length_cons, List.length_nil] at hlen
  have hout : x.drop (4 - i) <+: c.drop o := by
    obtain ⟨t, ht⟩ := hp
    by_cases hi : i ≤ 4
    · have e : c.drop o = (([0x28, 0xb5, 0x2f, 0xfd] ++ c).drop i).drop (4 - i) := by
        rw [List.drop_drop, show i + (4 - i) = 4 by omega, h3, show i - 4 = 0 by omega]
        rfl
      rw [e, ← ht, List.drop_append]
      exact List.prefix_append _ _
    · have e : c.drop o = ([0x28, 0xb5, 0x2f, 0xfd] ++ c).drop i := by
        rw [List.drop_append]
        simp only [List.length_cons, List.length_nil]
        rw [List.drop_eq_nil_of_le (as := [0x28, 0xb5, 0x2f, 0xfd]) (by simp only [List.length_cons, List.length_nil]; omega), List.nil_append, h3]
      rw [e, ← ht, show 4 - i = 0 by omega, List.drop_zero]
      exact List.prefix_append _ _
  have hol := hout.length_le
  simp only [List.length_drop] at hol
  refine ⟨x.length, x.drop (4 - i), ?_, Nat.le_refl _, hout, ⟨?_, by omega, ?_⟩, ?_⟩
  · unfold toyZstd
    rw [h1]
    simp only
    rw [if_pos (by simp only [List.length_drop]; omega)]
  · simp [h1]
  · simp only [List.length_drop]; omega
  · intro he
    refine ⟨rfl, ?_⟩
    have : (x.drop (4 - i)).length = (c.drop o).length := by
      rw [he]
      simp only [List.length_drop, List.length_append, List.length_cons, List.length_nil]; omega
    exact hout.eq_of_length this

def fetched (r : Res (Option Nat × Http × Bytes) × World) : Option (Option Nat × Bytes) :=
  match r.1 with
  | .ok (n, _, out) => some (n, out.take (n.getD 0))
  | .stop _ => none

/-- Hypotheses of the theorems above and their conclusion, for a chunk of five bytes, a plain and an
encrypting store, and different fragmentations. -/
example : FrameOf exHttpEnv.zstd exFrame exChunk
      (fun hist i o => (hist.map (·.2.length)).sum = i ∧ i ≤ 4 + exChunk.length ∧ o = i - 4) ∧
    fetched (httpGet exHttpEnv ⟨str "http://h", none, 0, 0⟩ (exH32 exChunk) (List.replicate 8 0)
      (netWorld [⟨[exFrame.take 1, (exFrame.drop 1).take 6, exFrame.drop 7], 0, some 200⟩])) = some (some 5, exChunk) ∧
    fetched (httpGet exHttpEnv ⟨str "http://h", some (List.replicate 32 3), 4, 0⟩ (exH32 exChunk) (List.replicate 8 0)
      (netWorld [⟨[], 7, none⟩, ⟨[(xorFrom (exHttpEnv.ks (List.replicate 32 3) (exH32 exChunk)) 0 exFrame).take 5,
        (xorFrom (exHttpEnv.ks (List.replicate 32 3) (exH32 exChunk)) 0 exFrame).drop 5], 0, some 200⟩])) = some (some 5, exChunk) :=
  ⟨toy_frame exChunk, by decide +kernel, by decide +kernel⟩

attribute [local irreducible] wp in
/-- C23 as stated is false: after a transient failure in the middle of the body, neither the decompressor nor
the output position is reset; the following complete delivery is not recognised. -/
theorem C23_mid_body_refuted : ¬ ∀ (env : Env), Sane env → ∀ (h : Http) (out c f : Bytes) (w : World)
    (I : List (Nat × Bytes) → Nat → Nat → Prop) (t g : Bytes → CurlRun),
    FrameOf env.zstd f c I → f.take 4 = [0x28, 0xb5, 0x2f, 0xfd] → (env.H c).length = 32 → c.length ≤ out.length → h.err ≤ 10 →
    AllMem w.mem → h.key = none → w.net = [t, g] →
    -- the first attempt breaks off with a timeout, the second one delivers the chunk
    (∀ url, (t url).frags.flatten <+: f ∧ TransientCode (t url).code ∧ (t url).http = some 200) →
    (∀ url, g url = ⟨[f], 0, some 200⟩) →
    wp (httpGet env h (env.H c) out) (fun a _ => a.1 = some c.length ∧ a.2.2.take c.length = c) (fun _ _ => False) w := by
  intro hh
  have h1 := hh exHttpEnv exHttpEnv_sane ⟨str "http://h", none, 0, 0⟩ (List.replicate 16 0) exChunk exFrame
    (netWorld [⟨[exFrame.take 6], 28, some 200⟩, ⟨[exFrame], 0, some 200⟩]) _ (fun _ => ⟨[exFrame.take 6], 28, some 200⟩)
    (fun _ => ⟨[exFrame], 0, some 200⟩) (toy_frame exChunk) rfl rfl (by decide) (by decide) (by intro b hb; cases hb) rfl rfl
    (fun url => ⟨⟨exFrame.drop 6, rfl⟩, Or.inr (Or.inr rfl), rfl⟩) (fun url => rfl)
  have h2 : fetched (httpGet exHttpEnv ⟨str "http://h", none, 0, 0⟩ (exHttpEnv.H exChunk) (List.replicate 16 0)
      (netWorld [⟨[exFrame.take 6], 28, some 200⟩, ⟨[exFrame], 0, some 200⟩])) = some (some 0, []) := by decide +kernel
  unfold wp at h1
  revert h1 h2
  generalize httpGet exHttpEnv ⟨str "http://h", none, 0, 0⟩ (exHttpEnv.H exChunk) (List.replicate 16 0)
      (netWorld [⟨[exFrame.take 6], 28, some 200⟩, ⟨[exFrame], 0, some 200⟩]) = p
  obtain ⟨a, w'⟩ := p
  intro h1 h2
  cases a with
  | stop _ => exact h1
  | ok a =>
    obtain ⟨n, h, o⟩ := a
    simp only [fetched, Option.some.injEq, Prod.mk.injEq] at h1 h2
    rw [h1.1] at h2
    cases h2.1

end Csn.Props
