import Verif.Proof.Buffer
import Verif.Props.HttpGood
/-
C85: the memory an HTTP store uses for downloads.
-/
namespace Csn.Props
open Csn Spec Proof

/-- C85: whatever the server sends and the decompressor does, the decode buffer never shrinks, and after a
request it is no larger than it was before or twice what was received in (the at most ten attempts of) this
request.  Missing: a bound that does not depend on the amount of data the server sends (refuted below). -/
theorem C85_twice_the_body_partial {env : Env} {h : Http} {id : Id} {out : Bytes} {w : World} (hs : h.size < 2 ^ 63)
    (hid : id.length = 32) :
    wp (httpGet env h id out)
      (fun a w' => ∃ used, w.net = used ++ w'.net ∧ used.length ≤ 10 ∧ h.size ≤ a.2.1.size ∧
        a.2.1.size ≤ max h.size (2 * bodyBytes (chunkUrl h.base h.key.isSome id) used))
      (fun _ _ => True) w := by
  rw [← urlOf_eq h id (by omega)]
  exact wp_mono (wp_httpGet_size hs) (fun a w' ⟨used, h1, h2, h3, _, h5⟩ => ⟨used, h1, h2, h3, h5⟩) (fun _ _ _ => trivial)

/-- C85 for servers that send what they should: if the (decrypted) body is a frame of a chunk that fits the
output buffer, and the decompressor leaves at most `K` bytes of a fragment unread, the buffer is afterwards no
larger than before or `max K 3` bytes plus twice the longest fragment: the length of the body does not matter.
Missing: bodies that are something else (refuted below). -/
theorem C85_frames_partial {env : Env} (hz : Sane env) {h : Http} {out c f : Bytes} {w : World} {fs rest : List (Bytes → CurlRun)}
    {g : Bytes → CurlRun} {I : List (Nat × Bytes) → Nat → Nat → Prop} {id : Id} {K L : Nat}
    (hframe : Prompt env.zstd f c I K) (hmagic : f.take 4 = [0x28, 0xb5, 0x2f, 0xfd])
    (hid : id.length = 32) (hroom : c.length ≤ out.length)
    (hmem : AllMem w.mem) (hb : h.base.length < 2 ^ 62) (hsz : h.size + f.length < 2 ^ 63)
    (hnet : w.net = fs ++ g :: rest) (hfew : fs.length ≤ 9)
    (hfail : ∀ t ∈ fs, (t (chunkUrl h.base h.key.isSome id)).frags = [] ∧ TransientCode (t (chunkUrl h.base h.key.isSome id)).code)
    (frags : List Bytes) (hrun : g (chunkUrl h.base h.key.isSome id) = ⟨frags, 0, some 200⟩)
    (hfrags : ∀ x ∈ frags, x ≠ [] ∧ x.length < 2 ^ 32 ∧ x.length ≤ L)
    (hbody : unmask (h.key.map (fun k => env.ks k id)) frags.flatten = f) :
    wp (httpGet env h id out) (fun a _ => a.2.1.size ≤ max h.size (max K 3 + 2 * L)) (fun _ _ => False) w := by
  rw [← urlOf_eq h id (by omega)] at *
  have hfl : frags.flatten.length = f.length := by
    rw [← hbody, unmask_eq, incoming_length]
  refine wp_mono (wp_httpGet_tries (Q := fun r => r.size ≤ max h.size (max K 3 + 2 * L)) hid hb hmem hnet
    ⟨hfew, hfail, by rw [hrun]; exact fun x hx => ⟨(hfrags x hx).1, (hfrags x hx).2.1⟩, by rw [hrun]; unfold TransientCode; simp⟩ ?_)
    (fun a w' ⟨r, h1, h2⟩ => by rw [h2]; exact h1) (fun _ _ h => h)
  intro w1 hm1
  rw [hrun]
  refine wp_deliver_held (n := out.length) hz hframe hmagic frags [] ⟨.started, [], 0, out, []⟩ _ w1
    ⟨rfl, Nat.zero_le _, by simp [freshReq], by simp only [freshReq]; omega⟩ ⟨rfl, rfl, rfl, fun _ => rfl, fun _ => rfl⟩
    ⟨⟨0, by simp, rfl, Or.inl ⟨rfl, rfl, rfl, rfl, by simp⟩⟩, by simp, by simp, hroom, ?_⟩ (by simp) ?_ hfrags hm1 ?_
  · intro h0
    have := congrArg List.length hmagic
    rw [← h0] at this
    simp at this
  · rw [decFrags_flatten, List.nil_append, ← hbody, unmask_eq]; rfl
  · rw [hfl]; exact hsz

/-- The frame of the empty chunk. -/
def emptyFrame : Bytes := [0x28, 0xb5, 0x2f, 0xfd, 0x20, 0, 1, 0, 0]

/-- A decompressor that knows the frame of the empty chunk.  Like ZSTD_decompressStream it returns at the end
of a frame. -/
def emptyZstd (_ : List (Nat × Bytes)) (_ : Nat) (data : Bytes) : Option (Nat × Bytes) :=
  if data.take 9 = emptyFrame then some (9, []) else none

def emptyEnv : Env := { exHttpEnv with zstd := emptyZstd }

theorem emptyEnv_sane : Sane emptyEnv := by
  intro hist room data k o h
  simp only [emptyEnv, emptyZstd] at h
  split at h
  · next hd =>
    cases h
    have := congrArg List.length hd
    simp [emptyFrame] at this
    exact ⟨by omega, by simp⟩
  · cases h

/-- 1820 frames fill a buffer of curl (16 KiB) but for four bytes. -/
def fullFrag : Bytes := copies emptyFrame (1819 + 1)

theorem fullFrag_length : fullFrag.length = 16380 := by rw [fullFrag, copies_length]; rfl

theorem fullFrag_ne : fullFrag ≠ [] := fun h => by
  have := congrArg List.length h
  rw [fullFrag_length] at this
  exact absurd this (by decide)

theorem empty_deliver {h : Http} {out : Bytes} (hsz : h.size < 2 ^ 61) (m : Nat) (hm : m * 16380 < 2 ^ 62 + 2 ^ 61)
    (w : World) (hw : AllMem w.mem) :
    wp (deliver emptyEnv none (some 200) (freshReq h out) (List.replicate m fullFrag))
      (fun a _ => m * 16371 ≤ a.2.size) (fun _ _ => False) w := by
  have hfl : (List.replicate m fullFrag).flatten.length = m * 16380 := by
    rw [List.length_flatten, List.map_replicate, fullFrag_length]; simp
  have hr : ReqOk out.length (freshReq h out) := ⟨rfl, Nat.zero_le _, by simp [freshReq], by simp only [freshReq]; omega⟩
  have hv : Rel ⟨.started, [], 0, out, []⟩ (freshReq h out) := ⟨rfl, rfl, rfl, fun _ => rfl, fun _ => rfl⟩
  have hfr : ∀ x ∈ List.replicate m fullFrag, x ≠ [] ∧ x.length < 2 ^ 32 := by
    intro x hx
    rw [List.eq_of_mem_replicate hx]
    exact ⟨fullFrag_ne, by rw [fullFrag_length]; decide⟩
  obtain ⟨_, p2, p3⟩ := pureDeliver_frames (env := emptyEnv) (e := emptyFrame) (fun _ _ x => by simp [emptyEnv, emptyZstd, emptyFrame]) rfl 1819 m
    ⟨.started, [], 0, out, []⟩ 0 rfl (by simp)
  refine wp_mono (wp_and (wp_deliver_pure emptyEnv_sane (ks := none) (http := some 200) (List.replicate m fullFrag) _ _ w hr hv hfr hw
      (by rw [hfl]; simp only [freshReq]; omega)) (wp_deliver_size (ks := none) (List.replicate m fullFrag) (freshReq h out) w ⟨hr.fill, hr.size⟩))
    (fun a w1 g => ?_) (fun _ _ g => g.1)
  obtain ⟨⟨_, _, _, _, g5⟩, g6, _⟩ := g
  rw [decFrags_none] at g5
  have e := g5.fill (by rw [g5.st]; exact p2)
  have hle := g6.ok.fill
  rw [e] at hle
  simp only [fullFrag] at hle
  rw [p3, copies_length] at hle
  simp only [emptyFrame, List.length_cons, List.length_nil] at hle
  omega

/-- C85 refuted: the memory used for one request has no bound independent of what the server sends, not even
when the output buffer and the fragments are small: of each fragment only one frame is read, the rest is kept.  (`2 ^ 62`: any memory
there could be.) -/
theorem C85_refuted : ¬ ∃ B < 2 ^ 62, ∀ (env : Env), Sane env → ∀ (h : Http) (id : Id) (out : Bytes) (w : World),
    h.size = 0 → h.key = none → id.length = 32 → out.length = 262144 → AllMem w.mem → w.net ≠ [] →
    (∀ g ∈ w.net, ∀ url, (∀ x ∈ (g url).frags, x.length ≤ 16384) ∧ (g url).code = 0 ∧ (g url).http = some 200) →
    wp (httpGet env h id out) (fun a _ => a.2.1.size ≤ B) (fun _ _ => False) w := by
  rintro ⟨B, hB, hh⟩
  obtain ⟨m, hm1, hm2⟩ : ∃ m, B < m * 16371 ∧ m * 16380 < 2 ^ 62 + 2 ^ 61 := ⟨B / 16371 + 1, by omega, by omega⟩
  obtain ⟨run, e1, e2, e3⟩ : ∃ run : CurlRun, run.frags = List.replicate m fullFrag ∧ run.code = 0 ∧ run.http = some 200 := ⟨⟨_, _, _⟩, rfl, rfl, rfl⟩
  obtain ⟨out, hl⟩ : ∃ out : Bytes, out.length = 262144 := ⟨List.replicate 262144 0, List.length_replicate⟩
  obtain ⟨h, d1, d2, d3⟩ : ∃ h : Http, h.size = 0 ∧ h.key = none ∧ h.base = [] := ⟨⟨[], none, 0, 0⟩, rfl, rfl, rfl⟩
  obtain ⟨id, c1⟩ : ∃ id : Id, id.length = 32 := ⟨List.replicate 32 0, rfl⟩
  have h1 := hh emptyEnv emptyEnv_sane h id out (netWorld [run]) d1 d2 c1 hl (by intro b hb; cases hb) (by simp [netWorld])
    (by
      intro g hg url
      simp only [netWorld, List.map_cons, List.map_nil, List.mem_singleton] at hg
      subst hg
      refine ⟨fun x hx => ?_, e2, e3⟩
      rw [e1] at hx
      rw [List.eq_of_mem_replicate hx, fullFrag_length]
      decide)
  have h2 := wp_httpGet_tries (env := emptyEnv) (h := h) (id := id) (out := out) (w := netWorld [run]) (fs := []) (rest := [])
    (g := fun _ => run) (Q := fun r => m * 16371 ≤ r.size) c1 (by rw [d3]; decide) (by intro b hb; cases hb) rfl
    ⟨by simp, by simp, ?_, by simp only [e2]; unfold TransientCode; simp⟩
    (fun w hw => by rw [e1, e3, d2]; exact empty_deliver (by rw [d1]; decide) m hm2 w hw)
  · have h3 := wp_and h1 h2
    unfold wp at h3
    revert h3
    generalize httpGet emptyEnv h id out (netWorld [run]) = p
    obtain ⟨a, w'⟩ := p
    intro h3
    cases a with
    | stop _ => exact h3.1
    | ok a =>
      obtain ⟨g1, r, g2, g3⟩ := h3
      rw [g3] at g1
      omega
  · intro x hx
    rw [e1] at hx
    rw [List.eq_of_mem_replicate hx]
    exact ⟨fullFrag_ne, by rw [fullFrag_length]; decide⟩

/-! ### Concrete cases -/

theorem toy_prompt (c : Bytes) : Prompt toyZstd ([0x28, 0xb5, 0x2f, 0xfd] ++ c) c
    (fun hist i o => (hist.map (·.2.length)).sum = i ∧ i ≤ 4 + c.length ∧ o = i - 4) 0 := by
  refine ⟨toy_frame c, ?_⟩
  intro hist i o x room k p _ _ _ _ h
  unfold toyZstd at h
  simp only at h
  split at h
  · cases h; exact Nat.le_refl _
  · cases h

def bufferSize (r : Res (Option Nat × Http × Bytes) × World) : Option Nat :=
  match r.1 with
  | .ok (_, h, _) => some h.size
  | .stop _ => none

/-- A frame consumed as it arrives, in fragments of one, six and two bytes, from a plain store (the buffer
gets one byte for the first fragment and six more for the second) and from an encrypting one; and a body of five
frames of the empty chunk in two fragments: of the second one, 27 bytes, nothing but the nine in front of it is read. -/
example : Prompt exHttpEnv.zstd exFrame exChunk
      (fun hist i o => (hist.map (·.2.length)).sum = i ∧ i ≤ 4 + exChunk.length ∧ o = i - 4) 0 ∧
    bufferSize (httpGet exHttpEnv ⟨str "http://h", none, 0, 0⟩ (exH32 exChunk) (List.replicate 8 0)
      (netWorld [⟨[exFrame.take 1, (exFrame.drop 1).take 6, exFrame.drop 7], 0, some 200⟩])) = some 7 ∧
    bufferSize (httpGet exHttpEnv ⟨str "http://h", some (List.replicate 32 3), 4, 0⟩ (exH32 exChunk) (List.replicate 8 0)
      (netWorld [⟨[], 7, none⟩, ⟨[(xorFrom (exHttpEnv.ks (List.replicate 32 3) (exH32 exChunk)) 0 exFrame).take 5,
        (xorFrom (exHttpEnv.ks (List.replicate 32 3) (exH32 exChunk)) 0 exFrame).drop 5], 0, some 200⟩])) = some 5 ∧
    bufferSize (httpGet emptyEnv ⟨str "http://h", none, 0, 0⟩ (List.replicate 32 0) (List.replicate 4 0)
      (netWorld [⟨[copies emptyFrame 2, copies emptyFrame 3], 0, some 200⟩])) = some 36 :=
  ⟨toy_prompt exChunk, by decide +kernel, by decide +kernel, by decide +kernel⟩

end Csn.Props
