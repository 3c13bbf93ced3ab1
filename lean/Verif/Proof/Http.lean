import Verif.Model.Http
import Verif.Spec.Http
import Verif.Proof.Wp
/-
HTTP stores: invariants that hold whatever the server does.
-/
namespace Csn.Proof
open Csn Spec

/-- The decompressor respects its buffers: it consumes at most its input and produces at most the room. -/
def Sane (env : Env) : Prop :=
  ∀ hist room data k o, env.zstd hist room data = some (k, o) → k ≤ data.length ∧ o.length ≤ room

/-- Every fragment a server's answer is cut into is shorter than 4 GiB (curl's own limit is 16 KiB). -/
def ShortFrags (net : List (Bytes → CurlRun)) : Prop :=
  ∀ f ∈ net, ∀ url, ∀ x ∈ (f url).frags, x.length < 2 ^ 32

/-- Buffer invariant of a request with `n` bytes of output buffer. -/
structure ReqOk (n : Nat) (r : Req) : Prop where
  out : r.out.length = n
  written : r.written ≤ n
  fill : r.fill.length ≤ r.size
  size : r.size < 2 ^ 63

/-- Only the allocation schedule changed. -/
def MemOnly (w w' : World) : Prop := w' = { w with mem := w'.mem }

theorem MemOnly.refl (w : World) : MemOnly w w := rfl

theorem MemOnly.trans {a b c : World} (h : MemOnly a b) (h' : MemOnly b c) : MemOnly a c := by
  unfold MemOnly at *; rw [h', h]

theorem allocPure_true {n : Nat} {mem : List Bool} (h : (allocPure n mem).1 = true) : n < 2 ^ 63 := by
  unfold allocPure at h
  simp only [Bool.and_eq_true, decide_eq_true_eq] at h
  exact h.2

/-- No allocation fails for lack of memory. -/
def AllMem (mem : List Bool) : Prop := ∀ b ∈ mem, b = true

theorem AllMem.alloc {mem : List Bool} (h : AllMem mem) {n : Nat} (hn : n < 2 ^ 63) :
    (allocPure n mem).1 = true ∧ AllMem (allocPure n mem).2 := by
  unfold allocPure memNext
  cases mem with
  | nil => simp only [Bool.true_and]; exact ⟨by simpa using hn, h⟩
  | cons b r =>
    have hb : b = true := h b (by simp)
    simp only [hb, Bool.true_and]
    exact ⟨by simpa using hn, fun x hx => h x (by simp [hx])⟩

theorem xorFrom_length (ks : Nat → UInt8) (d : Bytes) : ∀ pos, (xorFrom ks pos d).length = d.length := by
  induction d with
  | nil => intro; rfl
  | cons b r ih => intro pos; simp [xorFrom, ih]

/-- What `decode_buffer_absorb` appends. -/
def incoming (ks : Option (Nat → UInt8)) (pos : Nat) (d : Bytes) : Bytes :=
  match ks with
  | none => d
  | some k => xorFrom k pos d

theorem incoming_length (ks : Option (Nat → UInt8)) (pos : Nat) (d : Bytes) : (incoming ks pos d).length = d.length := by
  cases ks with
  | none => rfl
  | some k => exact xorFrom_length k d pos

/-- Everything but the decode buffer and key stream position. -/
structure SameReq (r r' : Req) : Prop where
  st : r'.st = r.st
  hist : r'.hist = r.hist
  written : r'.written = r.written
  out : r'.out = r.out

theorem wp_absorb {env : Env} {ks : Option (Nat → UInt8)} {r : Req} {data : Bytes} {n : Nat} {w : World}
    (hr : ReqOk n r) (hd : data.length < 2 ^ 32) :
    wp (absorb env ks r data)
      (fun a w' => MemOnly w w' ∧ ReqOk n a.2 ∧ SameReq r a.2 ∧ r.size ≤ a.2.size ∧
        (a.1 = true → a.2.fill = r.fill ++ incoming ks r.kpos data ∧ (ks.isSome → a.2.kpos = r.kpos + data.length)) ∧
        (AllMem w.mem → AllMem w'.mem) ∧
        (AllMem w.mem → r.size + data.length < 2 ^ 63 → (ks.isSome → data ≠ [] ∨ env.evp0 = true) →
          a.1 = true ∧ a.2.size ≤ r.size + data.length))
      (fun _ _ => False) w := by
  obtain ⟨h1, h2, h3, h4⟩ := hr
  unfold absorb
  have hroom : (r.size + 2 ^ 64 - r.fill.length) % 2 ^ 64 = r.size - r.fill.length := by omega
  rw [hroom]
  have key : ∀ (size : Nat) (w1 : World), r.size ≤ size → size < 2 ^ 63 → r.fill.length + data.length ≤ size →
      MemOnly w w1 → (AllMem w.mem → AllMem w1.mem) →
      (AllMem w.mem → r.size + data.length < 2 ^ 63 → size ≤ r.size + data.length) →
      wp (match ks with
        | some k =>
          match encryptDo k env.evp0 r.kpos data with
          | none => pure (false, { r with size := size })
          | some d =>
            if d.length < data.length then M.stop .ub
            else if r.fill.length + data.length > size then M.stop .ub
            else pure (true, { r with size := size, fill := r.fill ++ d, kpos := r.kpos + d.length })
        | none =>
          if r.fill.length + data.length > size then M.stop .ub
          else pure (true, { r with size := size, fill := r.fill ++ data }) : M (Bool × Req))
      (fun a w' => MemOnly w w' ∧ ReqOk n a.2 ∧ SameReq r a.2 ∧ r.size ≤ a.2.size ∧
        (a.1 = true → a.2.fill = r.fill ++ incoming ks r.kpos data ∧ (ks.isSome → a.2.kpos = r.kpos + data.length)) ∧
        (AllMem w.mem → AllMem w'.mem) ∧
        (AllMem w.mem → r.size + data.length < 2 ^ 63 → (ks.isSome → data ≠ [] ∨ env.evp0 = true) →
          a.1 = true ∧ a.2.size ≤ r.size + data.length))
      (fun _ _ => False) w1 := by
    intro size w1 g1 g2 g3 g4 g5 g6
    have g7 : ¬ (r.fill.length + data.length > size) := by omega
    cases ks with
    | none =>
      simp only [g7, if_false]
      refine wp_pure ⟨g4, ⟨h1, h2, by simp; omega, g2⟩, ⟨rfl, rfl, rfl, rfl⟩, g1, ?_, g5, ?_⟩
      · intro _; exact ⟨rfl, by simp⟩
      · intro m b _; exact ⟨rfl, g6 m b⟩
    | some k =>
      simp only
      have hm : data.length % 2 ^ 32 = data.length := Nat.mod_eq_of_lt hd
      by_cases h0 : data.length = 0 ∧ env.evp0 = false
      · have : encryptDo k env.evp0 r.kpos data = none := by simp only [encryptDo, hm, h0.1, h0.2, and_self, if_true]
        simp only [this]
        refine wp_pure ⟨g4, ⟨h1, h2, by simp only; omega, g2⟩, ⟨rfl, rfl, rfl, rfl⟩, g1, by simp, g5, ?_⟩
        intro _ _ h
        rcases h rfl with h | h
        · exact absurd (List.length_eq_zero_iff.mp h0.1) h
        · rw [h0.2] at h; cases h
      · have : encryptDo k env.evp0 r.kpos data = some (xorFrom k r.kpos data) := by
          simp only [encryptDo, hm, List.take_length, h0, if_false]
        simp only [this, xorFrom_length, Nat.lt_irrefl, if_false, g7]
        refine wp_pure ⟨g4, ⟨h1, h2, by simp [xorFrom_length]; omega, g2⟩, ⟨rfl, rfl, rfl, rfl⟩, g1, ?_, g5, ?_⟩
        · intro _; exact ⟨rfl, fun _ => rfl⟩
        · intro m b _; exact ⟨rfl, g6 m b⟩
  by_cases hlt : r.size - r.fill.length < data.length
  · have hns : (r.size + data.length) % 2 ^ 64 = r.size + data.length := by omega
    have hge : ¬ (r.size + data.length < r.size) := by omega
    simp only [hlt, if_true, hns, hge, if_false]
    refine wp_bind (wp_alloc ?_)
    cases hb : (allocPure (r.size + data.length) w.mem).1
    · simp only [Bool.not_false, if_true]
      refine wp_bind (wp_pure (wp_pure ⟨rfl, ⟨h1, h2, h3, h4⟩, ⟨rfl, rfl, rfl, rfl⟩, Nat.le_refl _, by simp, ?_, ?_⟩))
      · intro m
        by_cases hs : r.size + data.length < 2 ^ 63
        · exact (m.alloc hs).2
        · exact fun b hb' => m b (by
            unfold allocPure memNext at hb'
            cases hmm : w.mem with
            | nil => rw [hmm] at hb'; simp at hb'
            | cons x y => rw [hmm] at hb'; simp at hb'; simp [hb'])
      · intro m hs
        rw [(m.alloc hs).1] at hb; cases hb
    · have hs := allocPure_true hb
      simp only [Bool.not_true, Bool.false_eq_true, if_false]
      refine wp_bind (wp_pure ?_)
      exact key (r.size + data.length) _ (by omega) hs (by omega) rfl (fun m => (m.alloc hs).2) (fun _ _ => Nat.le_refl _)
  · simp only [hlt, if_false]
    refine wp_bind (wp_pure ?_)
    exact key r.size w (Nat.le_refl _) h4 (by omega) (MemOnly.refl _) (fun m => m) (fun _ _ => by omega)

theorem bufWrite_len (buf d : Bytes) (k : Nat) (h : k + d.length ≤ buf.length) : (bufWrite buf k d).length = buf.length := by
  unfold bufWrite
  simp; omega

/-- `handle_data` as a function. -/
def handlePure (env : Env) (r : Req) (data : Bytes) : Option Nat × Req :=
  if r.st = .started ∧ data.length < 4 then (some 0, r)
  else if r.st = .started ∧ data.take 4 ≠ zstdMagic then (none, r)
  else
    match env.zstd r.hist (r.out.length - r.written) data with
    | none => (none, { r with st := .streaming, hist := r.hist ++ [(r.out.length - r.written, data)] })
    | some (k, o) => (some k, { r with
        st := .streaming
        hist := r.hist ++ [(r.out.length - r.written, data)]
        written := r.written + o.length
        out := bufWrite r.out r.written o })

theorem handleData_eq {env : Env} (hz : Sane env) {r : Req} (hst : r.st ≠ .failed) (data : Bytes) (w : World) :
    handleData env r data w = (.ok (handlePure env r data), w) := by
  unfold handleData handlePure
  cases hs : r.st with
  | failed => exact absurd hs hst
  | started =>
    by_cases hl : data.length < 4
    · simp [hl]; rfl
    · by_cases hm : data.take 4 = zstdMagic
      · simp only [hl, hm, and_false, if_false, if_true, ne_eq, not_true_eq_false, bind]
        cases hd : env.zstd r.hist (r.out.length - r.written) data with
        | none => rfl
        | some ko =>
          obtain ⟨k, o⟩ := ko
          have := hz _ _ _ _ _ hd
          have h : ¬ (o.length > r.out.length - r.written ∨ k > data.length) := by omega
          simp only [h, if_false, M.bind, pure, M.pure]
      · simp [hl, hm]; rfl
  | streaming =>
    simp only [if_neg (show ¬ (HState.streaming = HState.started) by simp), false_and, if_false, hs, ne_eq, not_true_eq_false, bind, reduceCtorEq]
    cases hd : env.zstd r.hist (r.out.length - r.written) data with
    | none => simp [M.bind, pure, M.pure]
    | some ko =>
      obtain ⟨k, o⟩ := ko
      have := hz _ _ _ _ _ hd
      have h : ¬ (o.length > r.out.length - r.written ∨ k > data.length) := by omega
      simp only [h, if_false, M.bind, pure, M.pure]

theorem wp_handleData {env : Env} (hz : Sane env) {r : Req} (hst : r.st ≠ .failed) {data : Bytes} {w : World}
    {Q : Option Nat × Req → World → Prop} {S : Stop → World → Prop} (h : Q (handlePure env r data) w) :
    wp (handleData env r data) Q S w := by
  unfold wp
  rw [handleData_eq hz hst]
  exact h

theorem handlePure_ok {env : Env} (hz : Sane env) {n : Nat} {r : Req} (hr : ReqOk n r) (data : Bytes) :
    ReqOk n (handlePure env r data).2 ∧ (handlePure env r data).2.fill = r.fill ∧
    (handlePure env r data).2.size = r.size ∧ (handlePure env r data).2.kpos = r.kpos ∧
    (r.st ≠ .failed → (handlePure env r data).2.st ≠ .failed) ∧
    (∀ k, (handlePure env r data).1 = some k → k ≤ data.length) ∧
    (r.st = .started → (handlePure env r data).2.st = .streaming → data.take 4 = zstdMagic) ∧
    (r.st = .started → (handlePure env r data).2.st = .started → ∀ k, (handlePure env r data).1 = some k → k = 0) := by
  obtain ⟨h1, h2, h3, h4⟩ := hr
  unfold handlePure
  split
  · next hc => exact ⟨⟨h1, h2, h3, h4⟩, rfl, rfl, rfl, fun h => h, by simp, by simp [hc.1], by simp⟩
  · split
    · next hc => exact ⟨⟨h1, h2, h3, h4⟩, rfl, rfl, rfl, fun h => h, by simp, by simp [hc.1], by simp⟩
    · next hc =>
      have hmagic : r.st = .started → data.take 4 = zstdMagic := fun h =>
        Classical.byContradiction (fun h' => hc ⟨h, h'⟩)
      cases hd : env.zstd r.hist (r.out.length - r.written) data with
      | none => exact ⟨⟨h1, h2, h3, h4⟩, rfl, rfl, rfl, by simp, by simp, fun h _ => hmagic h, by simp⟩
      | some ko =>
        obtain ⟨k, o⟩ := ko
        have := hz _ _ _ _ _ hd
        refine ⟨⟨?_, by simp only; omega, h3, h4⟩, rfl, rfl, rfl, by simp, ?_, fun h _ => hmagic h, by simp⟩
        · simp only; rw [bufWrite_len _ _ _ (by omega)]; exact h1
        · intro k' hk'
          simp only [Option.some.injEq] at hk'
          omega

theorem handlePure_st (env : Env) (r : Req) (data : Bytes) (h : r.st ≠ .started) : (handlePure env r data).2.st ≠ .started := by
  unfold handlePure
  simp only [h, false_and, if_false]
  cases env.zstd r.hist (r.out.length - r.written) data with
  | none => simp
  | some ko => simp

/-- What is known about the first bytes of the body after a fragment has been handled. -/
structure FirstBytes (ks : Option (Nat → UInt8)) (r : Req) (d : Bytes) (r' : Req) : Prop where
  magic : r.st = .started → r'.st = .streaming → (r.fill ++ incoming ks r.kpos d).take 4 = zstdMagic
  started : r.st = .started → r'.st = .started →
    r'.fill = r.fill ++ incoming ks r.kpos d ∧ (ks.isSome → r'.kpos = r.kpos + d.length)
  notAgain : r.st ≠ .started → r'.st ≠ .started

theorem FirstBytes.failed (ks : Option (Nat → UInt8)) (r : Req) (d : Bytes) {r' : Req} (h : r'.st = .failed) : FirstBytes ks r d r' :=
  ⟨by simp [h], by simp [h], by simp [h]⟩

/-- One call of the write callback, whatever the server and the decompressor do. -/
theorem wp_dataCb {env : Env} (hz : Sane env) {ks : Option (Nat → UInt8)} {http : Option Nat} {r : Req} {frag : Bytes}
    {n : Nat} {w : World} (hr : ReqOk n r) (hd : frag.length < 2 ^ 32) :
    wp (dataCb env ks http r frag)
      (fun a w' => MemOnly w w' ∧ ReqOk n a.2 ∧ (a.1 = frag.length ∨ a.1 = 0) ∧ (a.1 ≠ frag.length → a.2.st = .failed) ∧
        (r.st = .failed → a.2.st = .failed) ∧
        (r.st = .started → http ≠ some 200 → a.1 = 0 ∧ a.2.st = .failed) ∧ FirstBytes ks r frag a.2)
      (fun _ _ => False) w := by
  unfold dataCb
  have hfail : ∀ (r' : Req) (w' : World), MemOnly w w' → ReqOk n r' →
      wp (pure (0, { r' with st := .failed }) : M (Nat × Req))
      (fun a w' => MemOnly w w' ∧ ReqOk n a.2 ∧ (a.1 = frag.length ∨ a.1 = 0) ∧ (a.1 ≠ frag.length → a.2.st = .failed) ∧
        (r.st = .failed → a.2.st = .failed) ∧
        (r.st = .started → http ≠ some 200 → a.1 = 0 ∧ a.2.st = .failed) ∧ FirstBytes ks r frag a.2)
      (fun _ _ => False) w' := fun r' w' hm hr' =>
    wp_pure ⟨hm, ⟨hr'.out, hr'.written, hr'.fill, hr'.size⟩, Or.inr rfl, fun _ => rfl, fun _ => rfl, fun _ _ => ⟨rfl, rfl⟩, .failed ks r frag rfl⟩
  by_cases h1 : r.st = .started ∧ http ≠ some 200
  · rw [if_pos h1]
    exact hfail r w (MemOnly.refl _) hr
  · have h1' : r.st = .started → http = some 200 := fun h => Classical.byContradiction (fun h' => h1 ⟨h, h'⟩)
    by_cases h2 : r.st = .failed
    · rw [if_neg h1, if_pos h2]
      exact wp_pure ⟨MemOnly.refl _, hr, Or.inr rfl, fun _ => h2, fun _ => h2, by simp [h2], .failed ks r frag h2⟩
    · rw [if_neg h1, if_neg h2]
      by_cases h3 : r.fill ≠ [] ∨ ks.isSome
      · rw [if_pos h3]
        refine wp_bind (wp_mono (wp_absorb hr hd) (fun a w1 h => ?_) (fun _ _ h => h))
        obtain ⟨ok, r1⟩ := a
        obtain ⟨a1, a2, a3, a4, a5, a6⟩ := h
        cases ok with
        | false => exact hfail r1 w1 a1 a2
        | true =>
          simp only
          have hst : r1.st ≠ .failed := by have := a3.st; simp only at this; rw [this]; exact h2
          have hok := handlePure_ok hz a2 r1.fill
          refine wp_bind (wp_handleData hz hst ?_)
          cases hp : handlePure env r1 r1.fill with
          | mk res r2 =>
            rw [hp] at hok
            obtain ⟨b1, b2, b3, b4, b5, b6, b7, b8⟩ := hok
            cases res with
            | none => exact hfail r2 w1 a1 b1
            | some k =>
              refine wp_pure ⟨a1, ⟨b1.out, b1.written, ?_, b1.size⟩, Or.inl rfl, by simp, fun h => absurd h h2, fun h h' => absurd (h1' h) h', ?_⟩
              · have := b1.fill
                simp only at this
                simp only [List.length_drop]; omega
              · have hst' := a3.st
                obtain ⟨c1, c2⟩ := a5 rfl
                simp only at hst' c1 c2 b2 b4 b5 b7 b8
                refine ⟨?_, ?_, ?_⟩
                · intro h h'
                  rw [← c1]; exact b7 (by rw [hst', h]) h'
                · intro h h'
                  have := b8 (by rw [hst', h]) h' k rfl
                  subst this
                  exact ⟨by rw [List.drop_zero, b2, c1], fun hk => by rw [b4]; exact c2 hk⟩
                · intro h h'
                  rw [← hst'] at h
                  have := handlePure_st env r1 r1.fill h
                  rw [hp] at this
                  exact this h'
      · rw [if_neg h3]
        have hfill : r.fill = [] := Classical.byContradiction (fun h => h3 (Or.inl h))
        have hks : ks = none := by
          cases ks with
          | none => rfl
          | some k => exact absurd (Or.inr rfl) h3
        have hok := handlePure_ok hz hr frag
        refine wp_bind (wp_handleData hz h2 ?_)
        cases hp : handlePure env r frag with
        | mk res r2 =>
          rw [hp] at hok
          obtain ⟨b1, b2, b3, b4, b5, b6, b7, b8⟩ := hok
          cases res with
          | none => exact hfail r2 w (MemOnly.refl _) b1
          | some k =>
            simp only
            by_cases hk : k < frag.length
            · simp only [hk, if_true]
              refine wp_bind (wp_mono (wp_absorb (data := frag.drop k) (w := w) b1 (by simp; omega)) (fun a w1 h => ?_) (fun _ _ h => h))
              obtain ⟨ok, r3⟩ := a
              obtain ⟨a1, a2, a3, a4, a5, a6⟩ := h
              cases ok with
              | false => exact hfail r3 w1 a1 a2
              | true =>
                have hst' := a3.st
                obtain ⟨c1, c2⟩ := a5 rfl
                simp only at hst' c1 c2 b2 b4 b5 b7 b8
                refine wp_pure ⟨a1, a2, Or.inl rfl, by simp, fun h => absurd h h2, fun h h' => absurd (h1' h) h', ?_, ?_, ?_⟩
                · intro h h'
                  rw [hst'] at h'
                  simp only [hfill, List.nil_append, hks, incoming]
                  exact b7 h h'
                · intro h h'
                  rw [hst'] at h'
                  have := b8 h h' k rfl
                  subst this
                  refine ⟨?_, by simp [hks]⟩
                  rw [c1, b2]
                  simp only [hks, incoming, List.drop_zero]
                · intro h h'
                  rw [hst'] at h'
                  have := handlePure_st env r frag h
                  rw [hp] at this
                  exact this h'
            · simp only [hk, if_false]
              simp only at b2 b4 b5 b7 b8 b6
              refine wp_pure ⟨MemOnly.refl _, b1, Or.inl rfl, by simp, fun h => absurd h h2, fun h h' => absurd (h1' h) h', ?_, ?_, ?_⟩
              · intro h h'
                simp only [hfill, List.nil_append, hks, incoming]
                exact b7 h h'
              · intro h h'
                have := b8 h h' k rfl
                have hf : frag = [] := List.length_eq_zero_iff.mp (by omega)
                refine ⟨?_, by simp [hks]⟩
                rw [b2, hf]; simp [hks, incoming]
              · intro h h'
                have := handlePure_st env r frag h
                rw [hp] at this
                exact this h'

theorem xorFrom_append (ks : Nat → UInt8) (d e : Bytes) : ∀ pos, xorFrom ks pos (d ++ e) = xorFrom ks pos d ++ xorFrom ks (pos + d.length) e := by
  induction d with
  | nil => intro pos; simp [xorFrom]
  | cons b r ih =>
    intro pos
    simp only [List.cons_append, xorFrom, ih, List.length_cons]
    congr 3; omega

theorem incoming_nil (ks : Option (Nat → UInt8)) (pos : Nat) : incoming ks pos [] = [] := by cases ks <;> rfl

theorem incoming_append (ks : Option (Nat → UInt8)) (pos pos' : Nat) (d e : Bytes) (h : ks.isSome → pos' = pos + d.length) :
    incoming ks pos (d ++ e) = incoming ks pos d ++ incoming ks pos' e := by
  cases ks with
  | none => rfl
  | some k => simp only [incoming, xorFrom_append]; rw [h rfl]

theorem FirstBytes.trans {ks : Option (Nat → UInt8)} {r r1 r2 : Req} {d : Bytes} {e : Bytes}
    (h : FirstBytes ks r d r1) (hf : r1.st = .failed → r2.st = .failed) (h' : FirstBytes ks r1 e r2) : FirstBytes ks r (d ++ e) r2 := by
  refine ⟨?_, ?_, fun h0 => h'.notAgain (h.notAgain h0)⟩
  · intro g1 g2
    cases hs : r1.st with
    | failed => rw [hf hs] at g2; cases g2
    | started =>
      obtain ⟨c1, c2⟩ := h.started g1 hs
      rw [incoming_append ks r.kpos r1.kpos d e c2, ← List.append_assoc, ← c1]
      exact h'.magic hs g2
    | streaming =>
      have := h.magic g1 hs
      have hl : 4 ≤ (r.fill ++ incoming ks r.kpos d).length := by
        have hh := congrArg List.length this
        simp only [List.length_take, zstdMagic, List.length_cons, List.length_nil] at hh
        omega
      rw [incoming_append ks r.kpos (r.kpos + d.length) d e (fun _ => rfl), ← List.append_assoc, List.take_append_of_le_length hl]
      exact this
  · intro g1 g2
    cases hs : r1.st with
    | failed => rw [hf hs] at g2; cases g2
    | started =>
      obtain ⟨c1, c2⟩ := h.started g1 hs
      obtain ⟨d1, d2⟩ := h'.started hs g2
      exact ⟨by rw [incoming_append ks r.kpos r1.kpos d e c2, ← List.append_assoc, ← c1]; exact d1,
        fun hk => by rw [d2 hk, c2 hk]; simp; omega⟩
    | streaming => exact absurd g2 (h'.notAgain (by simp [hs]))

/-- Delivery of a whole body. -/
theorem wp_deliver {env : Env} (hz : Sane env) {ks : Option (Nat → UInt8)} {http : Option Nat} {n : Nat}
    (fs : List Bytes) : ∀ (r : Req) (w : World), ReqOk n r → (∀ x ∈ fs, x.length < 2 ^ 32) →
    wp (deliver env ks http r fs)
      (fun a w' => MemOnly w w' ∧ ReqOk n a.2 ∧ (a.1 = true → a.2.st = .failed) ∧ (fs = [] → a.1 = false ∧ a.2 = r) ∧
        (r.st = .failed → a.2.st = .failed) ∧
        (r.st = .started → http ≠ some 200 → fs ≠ [] → a.2.st = .failed) ∧ FirstBytes ks r fs.flatten a.2)
      (fun _ _ => False) w := by
  induction fs with
  | nil =>
    intro r w hr _
    unfold deliver
    refine wp_pure ⟨MemOnly.refl _, hr, by simp, fun _ => ⟨rfl, rfl⟩, fun h => h, by simp, ?_, ?_, fun h => h⟩
    · intro h h'; rw [h] at h'; cases h'
    · intro _ _; exact ⟨by simp [incoming_nil], by simp⟩
  | cons f fs ih =>
    intro r w hr hs
    unfold deliver
    refine wp_bind (wp_mono (wp_dataCb hz hr (hs f (by simp))) (fun a w1 h => ?_) (fun _ _ h => h))
    obtain ⟨k, r1⟩ := a
    obtain ⟨a1, a2, a3, a4, a5, a6, a7⟩ := h
    simp only at a3 a4 a5 a6 a7
    by_cases hk : k ≠ f.length
    · simp only [if_pos hk]
      exact wp_pure ⟨a1, a2, fun _ => a4 hk, by simp, a5, fun h h' _ => (a6 h h').2, .failed _ _ _ (a4 hk)⟩
    · simp only [if_neg hk]
      refine wp_mono (ih r1 w1 a2 (fun x hx => hs x (by simp [hx]))) (fun b w2 h => ?_) (fun _ _ h => h)
      obtain ⟨b1, b2, b3, b4, b5, b6, b7⟩ := h
      exact ⟨a1.trans b1, b2, b3, by simp, fun h => b5 (a5 h), fun h h' _ => b5 (a6 h h').2, a7.trans (fun h => b5 h) b7⟩

/-- Effects of an HTTP request on the world: nothing but the network schedule, the allocation
schedule and log entries about requests and waiting. -/
structure NetOnly (w w' : World) : Prop where
  same : w' = { w with mem := w'.mem, net := w'.net, log := w'.log }
  net : w'.net <:+ w.net
  log : ∃ evs, w'.log = w.log ++ evs ∧ ∀ e ∈ evs, (∃ u, e = .http u) ∨ (∃ t, e = .sleep t)

theorem NetOnly.refl (w : World) : NetOnly w w := ⟨rfl, List.suffix_refl _, [], by simp, by simp⟩

theorem NetOnly.trans {a b c : World} (h : NetOnly a b) (h' : NetOnly b c) : NetOnly a c := by
  obtain ⟨x1, x2, evs, x3, x4⟩ := h
  obtain ⟨y1, y2, evs', y3, y4⟩ := h'
  refine ⟨by rw [y1, x1], y2.trans x2, evs ++ evs', by rw [y3, x3, List.append_assoc], ?_⟩
  intro e he
  rcases List.mem_append.mp he with he | he
  · exact x4 e he
  · exact y4 e he

theorem MemOnly.netOnly {a b : World} (h : MemOnly a b) : NetOnly a b :=
  ⟨by rw [h], by rw [h]; exact List.suffix_refl _, [], by rw [h]; simp, by simp⟩

theorem ShortFrags.suffix {a b : List (Bytes → CurlRun)} (h : ShortFrags a) (hs : b <:+ a) : ShortFrags b :=
  fun f hf => h f (hs.subset hf)

theorem transient_iff (c : Nat) : transient c = true ↔ TransientCode c := by
  unfold transient TransientCode
  simp only [Bool.or_eq_true, beq_iff_eq]
  omega

/-- What the attempts `as` of one request, made from world `w`, leave behind. -/
structure Attempted (ks : Option (Nat → UInt8)) (url : Bytes) (i n : Nat) (r : Req) (w : World) (as : List Attempt) (r' : Req) (w' : World) : Prop where
  ok : ReqOk n r'
  consecutive : Consecutive as
  net : ∃ ns, w.net = ns ++ w'.net ∧ ns.map (· url) = as.map (·.run)
  log : w'.log = w.log ++ attemptLog url i as
  same : w' = { w with mem := w'.mem, net := w'.net, log := w'.log }
  /-- without body data the request is as at the start -/
  bodyless : (∀ a ∈ as, a.run.frags = []) → r' = r ∧ ∀ a ∈ as, a.code = a.run.code
  /-- a response with another status than 200 is refused -/
  refused : r.st = .started → ∀ as1 a, as = as1 ++ [a] → (∀ b ∈ as1, b.run.frags = []) → a.run.http ≠ some 200 →
    r'.st ≠ .streaming
  failed : r.st = .failed → r'.st = .failed
  /-- data is only passed on if the body starts with the zstd magic -/
  magic : r.st = .started → r.fill = [] → r.kpos = 0 → ∀ as1 a, as = as1 ++ [a] → (∀ b ∈ as1, b.run.frags = []) →
    r'.st = .streaming → (incoming ks 0 a.run.frags.flatten).take 4 = zstdMagic

theorem wp_perform {env : Env} (hz : Sane env) {ks : Option (Nat → UInt8)} {url : Bytes} {r : Req} {n : Nat} {w : World}
    (hr : ReqOk n r) (hs : ShortFrags w.net) :
    wp (perform env ks url r)
      (fun a w' => ∃ at_ : Attempt, at_.Possible ∧ a.1 = at_.code ∧ a.2.1 = at_.run.http ∧
        ReqOk n a.2.2 ∧ (∃ f, w.net = f :: w'.net ∧ f url = at_.run) ∧ w'.log = w.log ++ [.http url] ∧
        w' = { w with mem := w'.mem, net := w'.net, log := w'.log } ∧
        (at_.run.frags = [] → a.2.2 = r ∧ at_.code = at_.run.code) ∧
        (r.st = .started → at_.run.http ≠ some 200 → a.2.2.st ≠ .streaming) ∧
        (r.st = .failed → a.2.2.st = .failed) ∧ FirstBytes ks r at_.run.frags.flatten a.2.2)
      (fun s w' => s = .killed ∧ w.net = [] ∧ w' = { w with log := w.log ++ [.http url] }) w := by
  unfold perform
  refine wp_bind (wp_emit ?_)
  apply wp_bind
  cases hn : w.net with
  | nil =>
    simp only [wp, hn]
    simp
  | cons f rest =>
    simp only [wp, hn]
    have hfr : ∀ x ∈ (f url).frags, x.length < 2 ^ 32 := hs f (by simp [hn]) url
    refine wp_bind (wp_mono (wp_deliver hz (f url).frags r _ hr hfr) (fun a w' h => ?_) (fun _ _ h => h.elim))
    obtain ⟨ab, r'⟩ := a
    obtain ⟨h1, h2, h3, h4, h5, h6, h7⟩ := h
    simp only at h2 h3 h4 h5 h6 h7
    refine wp_pure ⟨⟨f url, if ab then 23 else (f url).code⟩, ?_, rfl, rfl, h2, ⟨f, ?_, rfl⟩, ?_, ?_, ?_, ?_, h5, h7⟩
    · cases ab with
      | false => exact Or.inl rfl
      | true =>
        refine Or.inr ⟨rfl, ?_⟩
        intro h
        have := (h4 h).1
        cases this
    · rw [h1]
    · rw [h1]
    · rw [h1]
    · intro h
      obtain ⟨e1, e2⟩ := h4 h
      exact ⟨e2, by simp [e1]⟩
    · intro h h'
      by_cases hfr : (f url).frags = []
      · rw [(h4 hfr).2, h]; simp
      · rw [h6 h h' hfr]; simp

theorem backoff_succ (i : Nat) : min (2 * backoff i) 10000000 = backoff (i + 1) := by
  unfold backoff
  have : 2 ^ (i + 1) = 2 * 2 ^ i := by rw [Nat.pow_succ]; omega
  rw [this]
  omega

theorem wp_retried {env : Env} (hz : Sane env) {ks : Option (Nat → UInt8)} {url : Bytes} {n : Nat} (m : Nat) :
    ∀ (i wait : Nat) (r : Req) (w : World), wait = backoff i → ReqOk n r → ShortFrags w.net →
    wp (retried env ks url m wait r)
      (fun a w' => ∃ as1 last, Attempted ks url i n r w (as1 ++ [last]) a.2.2 w' ∧ a.1 = last.code ∧ a.2.1 = last.run.http ∧
        as1.length ≤ m ∧ (TransientCode last.code → as1.length = m))
      (fun s w' => s = .killed ∧ ∃ as r1 w1, Attempted ks url i n r w as r1 w1 ∧ as.length ≤ m ∧ (∀ a ∈ as, TransientCode a.code) ∧
        w1.net = [] ∧ w' = { w1 with log := w1.log ++ [.http url] }) w := by
  induction m with
  | zero =>
    intro i wait r w hw hr hs
    unfold retried
    refine wp_bind (wp_mono (wp_perform hz hr hs) (fun a w1 h => ?_) (fun s w1 h => ?_))
    · obtain ⟨code, http, r1⟩ := a
      obtain ⟨at_, h1, h2, h3, h4, ⟨f, h5, h5'⟩, h6, h7, h8, h9, h10, h11⟩ := h
      simp only at h2 h3 h4 h8 h9 h10 h11
      have hmag : r.st = .started → r.fill = [] → r.kpos = 0 → r1.st = .streaming → (incoming ks 0 at_.run.frags.flatten).take 4 = zstdMagic := by
        intro g1 g2 g3 g4
        have := h11.magic g1 g4
        rw [g2, g3] at this
        exact this
      have hmag1 : r.st = .started → r.fill = [] → r.kpos = 0 → ∀ as1 a, [at_] = as1 ++ [a] → (∀ b ∈ as1, b.run.frags = []) →
          r1.st = .streaming → (incoming ks 0 a.run.frags.flatten).take 4 = zstdMagic := by
        intro g1 g2 g3 as1 a e _ g4
        cases as1 with
        | nil => simp at e; subst e; exact hmag g1 g2 g3 g4
        | cons x y => simp at e
      have key : ∀ w2 : World, w2.net = w1.net → w2 = { w with mem := w2.mem, net := w2.net, log := w2.log } →
          w2.log = w.log ++ attemptLog url i [at_] →
          ∃ as1 last, Attempted ks url i n r w (as1 ++ [last]) r1 w2 ∧ code = last.code ∧ http = last.run.http ∧
            as1.length ≤ 0 ∧ (TransientCode last.code → as1.length = 0) := by
        intro w2 e1 e2 e3
        refine ⟨[], at_, ⟨h4, ⟨by simpa using h1, by simp⟩, ⟨[f], by simp [h5, e1], by simp [h5']⟩, e3, e2, ?_, ?_, h10, hmag1⟩, h2, h3, by simp, by simp⟩
        · intro h
          have := h8 (h at_ (by simp))
          exact ⟨this.1, by simpa using this.2⟩
        · intro hst as1 b e _ hb
          have : as1 = [] ∧ b = at_ := by
            cases as1 with
            | nil => simp at e; exact ⟨rfl, e.symm⟩
            | cons x y => simp at e
          rw [this.2] at hb
          exact h9 hst hb
      by_cases ht : transient code = true
      · simp only [ht, Bool.not_true, Bool.false_eq_true, if_false]
        refine wp_bind (wp_emit (wp_pure (key _ rfl ?_ ?_)))
        · rw [h7]
        · simp only [attemptLog, h6]
          rw [if_pos ((transient_iff _).mp (by rw [← h2]; exact ht)), hw]
          simp
      · have ht' : transient code = false := by simpa using ht
        simp only [ht', Bool.not_false, if_true]
        refine wp_pure (key _ rfl h7 ?_)
        simp only [attemptLog, h6]
        rw [if_neg (fun h => ht ((transient_iff _).mpr (by rw [h2]; exact h)))]
        simp
    · obtain ⟨h1, h2, h3⟩ := h
      exact ⟨h1, [], r, w, ⟨hr, ⟨by simp, by simp⟩, ⟨[], by simp, by simp⟩, by simp [attemptLog], rfl, by simp,
        by intro _ as1 a e; simp at e, fun h => h, by intro _ _ _ as1 a e; simp at e⟩, by simp, by simp, h2, h3⟩
  | succ m ih =>
    intro i wait r w hw hr hs
    unfold retried
    refine wp_bind (wp_mono (wp_perform hz hr hs) (fun a w1 h => ?_) (fun s w1 h => ?_))
    · obtain ⟨code, http, r1⟩ := a
      obtain ⟨at_, h1, h2, h3, h4, ⟨f, h5, h5'⟩, h6, h7, h8, h9, h10, h11⟩ := h
      simp only at h2 h3 h4 h8 h9 h10 h11
      have hmag : r.st = .started → r.fill = [] → r.kpos = 0 → r1.st = .streaming → (incoming ks 0 at_.run.frags.flatten).take 4 = zstdMagic := by
        intro g1 g2 g3 g4
        have := h11.magic g1 g4
        rw [g2, g3] at this
        exact this
      have hmag1 : r.st = .started → r.fill = [] → r.kpos = 0 → ∀ as1 a, [at_] = as1 ++ [a] → (∀ b ∈ as1, b.run.frags = []) →
          r1.st = .streaming → (incoming ks 0 a.run.frags.flatten).take 4 = zstdMagic := by
        intro g1 g2 g3 as1 a e _ g4
        cases as1 with
        | nil => simp at e; subst e; exact hmag g1 g2 g3 g4
        | cons x y => simp at e
      by_cases ht : transient code = true
      · simp only [ht, Bool.not_true, Bool.false_eq_true, if_false]
        have htc : TransientCode at_.code := (transient_iff _).mp (by rw [← h2]; exact ht)
        refine wp_bind (wp_emit ?_)
        have hs1 : ShortFrags w1.net := hs.suffix (by rw [h5]; exact List.suffix_cons _ _)
        let w2 : World := { w1 with log := w1.log ++ [.sleep wait] }
        have hext : ∀ as r2 w3, Attempted ks url (i + 1) n r1 w2 as r2 w3 → Attempted ks url i n r w (at_ :: as) r2 w3 := by
          intro as r2 w3 h
          obtain ⟨g1, g2, ⟨ns, g3, g3'⟩, g4, g5, g6, g7, g8, g9⟩ := h
          refine ⟨g1, ⟨?_, ?_⟩, ⟨f :: ns, by rw [h5]; simp; exact g3, by simp [h5', g3']⟩, ?_, ?_, ?_, ?_, fun h => g8 (h10 h), ?_⟩
          · intro b hb
            rcases List.mem_cons.mp hb with e | hb
            · subst e; exact h1
            · exact g2.1 b hb
          · intro b hb
            cases as with
            | nil => simp at hb
            | cons x y =>
              simp only [List.dropLast_cons_cons, List.mem_cons] at hb
              rcases hb with e | hb
              · subst e; exact htc
              · exact g2.2 b hb
          · rw [g4]
            simp only [w2, attemptLog, h6, htc, if_true, hw]
            simp
          · rw [g5]; simp only [w2]; rw [h7]
          · intro h
            obtain ⟨e1, e2⟩ := h8 (h at_ (by simp))
            obtain ⟨e3, e4⟩ := g6 (fun b hb => h b (by simp [hb]))
            refine ⟨by rw [e3, e1], ?_⟩
            intro b hb
            rcases List.mem_cons.mp hb with e | hb
            · subst e; exact e2
            · exact e4 b hb
          · intro hst as1 b e hb1 hb2
            cases as1 with
            | nil =>
              simp only [List.nil_append, List.cons.injEq] at e
              obtain ⟨e1, e2⟩ := e
              subst e1 e2
              have h0 := h9 hst hb2
              have : r2 = r1 := (g6 (by simp)).1
              rw [this]
              exact h0
            | cons x y =>
              simp only [List.cons_append, List.cons.injEq] at e
              obtain ⟨e1, e2⟩ := e
              subst e1
              have hst1 : r1.st = .started := by rw [(h8 (hb1 at_ (by simp))).1]; exact hst
              exact g7 hst1 y b e2 (fun c hc => hb1 c (by simp [hc])) hb2
          · intro hst hfl hkp as1 b e hb1 hb2
            cases as1 with
            | nil =>
              simp only [List.nil_append, List.cons.injEq] at e
              obtain ⟨e1, e2⟩ := e
              subst e1 e2
              have : r2 = r1 := (g6 (by simp)).1
              rw [this] at hb2
              exact hmag hst hfl hkp hb2
            | cons x y =>
              simp only [List.cons_append, List.cons.injEq] at e
              obtain ⟨e1, e2⟩ := e
              subst e1
              have hr1 : r1 = r := (h8 (hb1 at_ (by simp))).1
              exact g9 (by rw [hr1]; exact hst) (by rw [hr1]; exact hfl) (by rw [hr1]; exact hkp) y b e2 (fun c hc => hb1 c (by simp [hc])) hb2
        refine wp_mono (ih (i + 1) _ r1 w2 (by rw [hw]; exact backoff_succ i) h4 hs1) (fun a w3 h => ?_) (fun s w3 h => ?_)
        · obtain ⟨as1, last, g1, g2, g3, g4, g5⟩ := h
          exact ⟨at_ :: as1, last, hext _ _ _ g1, g2, g3, by simp; omega, fun h => by simp [g5 h]⟩
        · obtain ⟨g1, as, r2, w4, g2, g3, g4, g5, g6⟩ := h
          refine ⟨g1, at_ :: as, r2, w4, hext _ _ _ g2, by simp; omega, ?_, g5, g6⟩
          intro b hb
          rcases List.mem_cons.mp hb with e | hb
          · subst e; exact htc
          · exact g4 b hb
      · have ht' : transient code = false := by simpa using ht
        simp only [ht', Bool.not_false, if_true]
        have htc : ¬ TransientCode at_.code := fun h => ht ((transient_iff _).mpr (by rw [h2]; exact h))
        refine wp_pure ⟨[], at_, ⟨h4, ⟨by simpa using h1, by simp⟩, ⟨[f], by simp [h5], by simp [h5']⟩, ?_, h7, ?_, ?_, h10, hmag1⟩, h2, h3, by simp, fun h => absurd h htc⟩
        · simp only [List.nil_append, attemptLog, h6]
          rw [if_neg htc]; simp
        · intro h
          have := h8 (h at_ (by simp))
          exact ⟨this.1, by simpa using this.2⟩
        · intro hst as1 b e _ hb
          have : as1 = [] ∧ b = at_ := by
            cases as1 with
            | nil => simp at e; exact ⟨rfl, e.symm⟩
            | cons x y => simp at e
          rw [this.2] at hb
          exact h9 hst hb
    · obtain ⟨h1, h2, h3⟩ := h
      exact ⟨h1, [], r, w, ⟨hr, ⟨by simp, by simp⟩, ⟨[], by simp, by simp⟩, by simp [attemptLog], rfl, by simp,
        by intro _ as1 a e; simp at e, fun h => h, by intro _ _ _ as1 a e; simp at e⟩, by simp, by simp, h2, h3⟩

end Csn.Proof
