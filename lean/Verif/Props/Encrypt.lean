import Verif.Proof.ChaCha
/-
C40-C42: chunk encryption.
-/
namespace Csn.Props
open Csn Spec Proof

theorem xorFrom_len (ks : Nat → UInt8) (d : Bytes) : ∀ pos, (xorFrom ks pos d).length = d.length := by
  induction d with
  | nil => intro pos; rfl
  | cons x d ih => intro pos; simp [xorFrom, ih]

theorem xorFrom_twice (ks : Nat → UInt8) (d : Bytes) : ∀ pos, xorFrom ks pos (xorFrom ks pos d) = d := by
  induction d with
  | nil => intro pos; rfl
  | cons x d ih =>
    intro pos
    simp only [xorFrom, ih]
    rw [UInt8.xor_assoc, UInt8.xor_self, UInt8.xor_zero]

theorem xorFrom_append (ks : Nat → UInt8) (d e : Bytes) : ∀ pos, xorFrom ks pos (d ++ e) = xorFrom ks pos d ++ xorFrom ks (pos + d.length) e := by
  induction d with
  | nil => intro pos; rfl
  | cons x d ih =>
    intro pos
    simp only [List.cons_append, xorFrom, ih, List.length_cons]
    have : pos + 1 + d.length = pos + (d.length + 1) := by omega
    rw [this]

theorem encryptDo_small {ks : Nat → UInt8} {evp0 : Bool} {pos : Nat} {d : Bytes} (hs : d.length < 2 ^ 32) (h0 : d ≠ [] ∨ evp0 = true) :
    encryptDo ks evp0 pos d = some (xorFrom ks pos d) := by
  unfold encryptDo
  have e : d.length % 2 ^ 32 = d.length := Nat.mod_eq_of_lt hs
  simp only [e, List.take_length]
  rw [if_neg]
  rintro ⟨h1, h2⟩
  rcases h0 with h | h
  · exact h (List.length_eq_zero_iff.mp h1)
  · rw [h] at h2; cases h2

/-- One chunk with one key and ID as the callers do it (store-http.c, csn-tool.c): restart, one call. -/
def encryptOnce (c : EncCtx) (evp0 : Bool) (id d : Bytes) : Option Bytes := (encryptDoCtx (encryptRestart c id) evp0 d).1

/-- C40: a chunk below 4 GiB that is encrypted twice under the same key and ID, by whatever contexts, comes back;
every pass preserves the length.  `evp0`: OpenSSL before 3 takes empty input; later ones (and so the code) refuse
it.  Missing from the full claim: larger inputs, see `C40_huge_refuted`. -/
theorem C40_involution_partial (c c' : EncCtx) (hk : c.key = c'.key) (evp0 : Bool) (id d : Bytes) (hs : d.length < 2 ^ 32) (h0 : d ≠ [] ∨ evp0 = true) :
    ∃ e, encryptOnce c evp0 id d = some e ∧ e.length = d.length ∧ encryptOnce c' evp0 id e = some d := by
  refine ⟨xorFrom (encryptStream c.key id) 0 d, ?_, xorFrom_len _ _ _, ?_⟩
  · simp only [encryptOnce, encryptDoCtx, encryptRestart]
    rw [encryptDo_small hs h0]
  · simp only [encryptOnce, encryptDoCtx, encryptRestart]
    rw [encryptDo_small (d := xorFrom (encryptStream c.key id) 0 d) (by rw [xorFrom_len]; exact hs) (h0.imp (fun h h' => h (by
      have := congrArg List.length h'
      rw [xorFrom_len] at this
      exact List.length_eq_zero_iff.mp this)) (fun h => h)), ← hk, xorFrom_twice]

/-- C40 is false for inputs of 4 GiB and more: the length is truncated to 32 bits, so that a file of 4 GiB + 5
bytes has only its first five bytes encrypted. -/
theorem C40_huge_refuted (c : EncCtx) (evp0 : Bool) (id d : Bytes) (hs : d.length = 2 ^ 32 + 5) :
    ∃ e, encryptOnce c evp0 id d = some e ∧ e.length = 5 := by
  refine ⟨xorFrom (encryptStream c.key id) 0 (d.take 5), ?_, by rw [xorFrom_len, List.length_take, hs]; omega⟩
  simp only [encryptOnce, encryptDoCtx, encryptRestart, encryptDo, hs]
  have e : (2 ^ 32 + 5) % 2 ^ 32 = 5 := by omega
  simp only [e]
  rw [if_neg (by omega)]

example : ∃ d : Bytes, d.length = 2 ^ 32 + 5 := ⟨List.replicate (2 ^ 32 + 5) 0, List.length_replicate⟩

/-- What is done with a context. -/
inductive EncOp where
  | restart (nonce : Bytes)
  | data (d : Bytes)

/-- A sequence of calls on a context. -/
def encOps (evp0 : Bool) : EncCtx → List EncOp → List (Option Bytes) × EncCtx
  | c, [] => ([], c)
  | c, .restart n :: ops => encOps evp0 (encryptRestart c n) ops
  | c, .data d :: ops =>
    let (o, c) := encryptDoCtx c evp0 d
    let (os, c) := encOps evp0 c ops
    (o :: os, c)

theorem encOps_key (evp0 : Bool) (ops : List EncOp) : ∀ c, (encOps evp0 c ops).2.key = c.key := by
  induction ops with
  | nil => intro c; rfl
  | cons op ops ih =>
    intro c
    cases op with
    | restart n => simp only [encOps, ih, encryptRestart]
    | data d =>
      simp only [encOps, ih, encryptDoCtx]
      cases c.cipher with
      | none => rfl
      | some x =>
        cases x with
        | mk ks pos =>
          simp only
          cases encryptDo ks evp0 pos d <;> rfl

theorem encOps_pieces (evp0 : Bool) (ds : List Bytes) : ∀ key ks pos, (∀ d ∈ ds, d.length < 2 ^ 32 ∧ (d ≠ [] ∨ evp0 = true)) →
    ∃ os : List Bytes, (encOps evp0 ⟨key, some (ks, pos)⟩ (ds.map .data)).1 = os.map some ∧ os.map List.length = ds.map List.length ∧
      os.flatten = xorFrom ks pos ds.flatten := by
  induction ds with
  | nil => intro key ks pos _; exact ⟨[], rfl, rfl, rfl⟩
  | cons d ds ih =>
    intro key ks pos h
    obtain ⟨h1, h2⟩ := h d (by simp)
    obtain ⟨os, g1, g2, g3⟩ := ih key ks (pos + d.length) (fun d hd => h d (by simp [hd]))
    refine ⟨xorFrom ks pos d :: os, ?_, by simp [g2, xorFrom_len], ?_⟩
    · simp only [List.map_cons, encOps, encryptDoCtx]
      rw [encryptDo_small h1 h2]
      simp only [xorFrom_len, g1]
    · rw [List.flatten_cons, List.flatten_cons, xorFrom_append, g3]

/-- C41: whatever a context was used for before, the pieces processed after a restart come out as the
corresponding pieces of what a fresh context makes of the whole data in one call after restarting with the
same nonce.  Missing from the full claim: inputs of 4 GiB and more (`C40_huge_refuted`). -/
theorem C41_streaming_partial (evp0 : Bool) (key nonce : Bytes) (before : List EncOp) (ds : List Bytes)
    (hd : ∀ d ∈ ds, d ≠ [] ∨ evp0 = true) (hs : ds.flatten.length < 2 ^ 32) (h0 : ds.flatten ≠ [] ∨ evp0 = true) :
    ∃ os : List Bytes, (encOps evp0 (encryptRestart (encOps evp0 (encryptInit key) before).2 nonce) (ds.map .data)).1 = os.map some ∧
      os.map List.length = ds.map List.length ∧ encryptOnce (encryptInit key) evp0 nonce ds.flatten = some os.flatten := by
  have hle : ∀ d ∈ ds, d.length ≤ ds.flatten.length := by
    intro d hd
    obtain ⟨a, b, e⟩ := List.append_of_mem hd
    rw [e]; simp; omega
  obtain ⟨os, h1, h2, h3⟩ := encOps_pieces evp0 ds (encOps evp0 (encryptInit key) before).2.key
    (encryptStream (encOps evp0 (encryptInit key) before).2.key nonce) 0 (fun d h => ⟨Nat.lt_of_le_of_lt (hle d h) hs, hd d h⟩)
  refine ⟨os, h1, h2, ?_⟩
  simp only [encryptOnce, encryptDoCtx, encryptRestart]
  rw [encryptDo_small hs h0, h3, encOps_key]

theorem xorFrom_getElem? (ks : Nat → UInt8) (d : Bytes) : ∀ pos i, (xorFrom ks pos d)[i]? = (d[i]?).map (· ^^^ ks (pos + i)) := by
  induction d with
  | nil => intro pos i; simp [xorFrom]
  | cons x d ih =>
    intro pos i
    cases i with
    | zero => simp [xorFrom]
    | succ i =>
      simp only [xorFrom, List.getElem?_cons_succ, ih]
      have : pos + 1 + i = pos + (i + 1) := by omega
      rw [this]

/-- C42: whatever a context was used for before, after a restart with a chunk ID position `i` of the data, processed
in pieces below 4 GiB, is combined with byte `i` of the XChaCha20 key stream for the context's key and the ID's first
24 bytes, up to 2^38 bytes (256 GiB, where the documents' block counter ends). -/
theorem C42_xchacha20 (evp0 : Bool) (key id : Bytes) (before : List EncOp) (ds : List Bytes)
    (hd : ∀ d ∈ ds, d.length < 2 ^ 32 ∧ (d ≠ [] ∨ evp0 = true)) :
    ∃ os : List Bytes, (encOps evp0 (encryptRestart (encOps evp0 (encryptInit key) before).2 id) (ds.map .data)).1 = os.map some ∧
      ∀ i, i < 2 ^ 38 → os.flatten[i]? = (ds.flatten[i]?).map (· ^^^ xchacha key (id.take 24) i) := by
  obtain ⟨os, h1, _, h3⟩ := encOps_pieces evp0 ds (encOps evp0 (encryptInit key) before).2.key
    (encryptStream (encOps evp0 (encryptInit key) before).2.key id) 0 hd
  refine ⟨os, h1, ?_⟩
  intro i hi
  have hk : encryptStream key id i = xchacha key (id.take 24) i := by
    rw [encryptStream_eq _ _ _ hi]
    unfold xchacha
    rw [List.take_take, List.drop_take, List.take_take]
    rfl
  rw [h3, xorFrom_getElem?, Nat.zero_add, encOps_key]
  show _ = _
  have : (encryptInit key).key = key := rfl
  rw [this, hk]

/-- C42, the whole key stream including positions reached by streaming, and the subkey derivation. -/
theorem C42_keystream (key nonce : Bytes) : (∀ i, i < 2 ^ 38 → encryptStream key nonce i = xchacha key nonce i) ∧
    (∀ n, hchacha20 key n = hchacha key n) :=
  ⟨fun i h => encryptStream_eq key nonce i h, fun n => hchacha20_eq key n⟩

/-- The specification reproduces the documents' test vectors: HChaCha20 (draft, section 2.2.1), -/
example : hchacha ((List.range 32).map UInt8.ofNat) [0, 0, 0, 9, 0, 0, 0, 0x4a, 0, 0, 0, 0, 0x31, 0x41, 0x59, 0x27] =
    [0x82, 0x41, 0x3b, 0x42, 0x27, 0xb2, 0x7b, 0xfe, 0xd3, 0x0e, 0x42, 0x50, 0x8a, 0x87, 0x7d, 0x73,
     0xa0, 0xf9, 0xe4, 0xd5, 0x8a, 0x74, 0xa8, 0x53, 0xc1, 0x2e, 0xc4, 0x13, 0x26, 0xd3, 0xec, 0xdc] := by decide +kernel

/-- and the ChaCha20 block function (RFC 8439, section 2.3.2). -/
example : (List.range 16).map (chachaBlock ((List.range 32).map UInt8.ofNat) 1 [0, 0, 0, 9, 0, 0, 0, 0x4a, 0, 0, 0, 0]) =
    [0x10, 0xf1, 0xe7, 0xe4, 0xd1, 0x3b, 0x59, 0x15, 0x50, 0x0f, 0xdd, 0x1f, 0xa3, 0x20, 0x71, 0xc4] := by decide +kernel

/-- Data in three pieces on a context that was in the middle of another chunk. -/
example : ∃ os : List Bytes, (encOps false (encryptRestart (encOps false (encryptInit (List.replicate 32 7)) [.restart (List.replicate 32 1), .data [1, 2, 3]]).2
    (List.replicate 32 9)) ([[5, 6], [7], [8, 9]].map .data)).1 = os.map some ∧
    encryptOnce (encryptInit (List.replicate 32 7)) false (List.replicate 32 9) [5, 6, 7, 8, 9] = some os.flatten := by
  obtain ⟨os, h1, _, h3⟩ := C41_streaming_partial false (List.replicate 32 7) (List.replicate 32 9) [.restart (List.replicate 32 1), .data [1, 2, 3]]
    [[5, 6], [7], [8, 9]] (by decide) (by decide) (by decide)
  exact ⟨os, h1, h3⟩

example : ∃ c evp0 id d e, encryptOnce c evp0 id d = some e ∧ e ≠ d ∧ 70 < e.length :=
  ⟨encryptInit (List.replicate 32 7), false, List.replicate 32 9, List.replicate 80 1, _,
    by rw [encryptOnce, encryptDoCtx, encryptRestart]; rfl, by decide +kernel, by decide +kernel⟩

end Csn.Props
