import Verif.Proof.Text
import Verif.Props.LocalExact
/-
C19, C20, C22, C24, C25: HTTP stores against arbitrary servers.
-/
namespace Csn.Props
open Csn Spec Proof

/-- Ask an HTTP store for a list of IDs, reusing one buffer, until it fails (a failed store is not
asked again, C14). -/
def httpAll (env : Env) : Http → Bytes → List Id → M (List (Id × Answer) × Http)
  | h, _, [] => pure ([], h)
  | h, out, id :: ids => do
    let (r, h, out) ← httpGet env h id out
    match r with
    | none => return ([(id, .failed)], h)
    | some n => do
      let (as, h) ← httpAll env h out ids
      return ((id, answer (some n) out) :: as, h)

/-- The life of an HTTP store: creation from its command line argument and a sequence of lookups.
`none`: creation failed. -/
def httpSession (env : Env) (arg out : Bytes) (ids : List Id) : M (Option (List (Id × Answer) × Http)) := do
  match ← httpNew env arg with
  | none => return none
  | some h => do
    let r ← httpAll env h out ids
    return some r

theorem attempted_netOnly {ks : Option (Nat → UInt8)} {url : Bytes} {i n : Nat} {r r' : Req} {w w' : World} {as : List Attempt}
    (h : Attempted ks url i n r w as r' w') : w'.net <:+ w.net := by
  obtain ⟨ns, h1, _⟩ := h.net
  exact ⟨ns, h1.symm⟩

/-- One request of an HTTP store: what is needed about it for sequences of requests. -/
structure Request (env : Env) (h : Http) (id : Id) (w : World) (v : Verdict) (ok : Bool) (as : List Attempt) (res : Option Nat)
    (out' : Bytes) (h' : Http) (w' : World) : Prop where
  /-- between 1 and 10 attempts, or none at all if curl cannot even store the URL -/
  count : if ok then 1 ≤ as.length ∧ as.length ≤ 10 else as = []
  consecutive : Consecutive as
  log : w'.log = w.log ++ attemptLog (chunkUrl h.base h.key.isSome id) 0 as
  net : ∃ ns, w.net = ns ++ w'.net ∧ ns.map (· (chunkUrl h.base h.key.isSome id)) = as.map (·.run)
  same : w' = { w with mem := w'.mem, net := w'.net, log := w'.log }
  base : h'.base = h.base ∧ h'.key = h.key
  /-- giving up is only possible after ten attempts -/
  tenth : ∀ a, as.getLast? = some a → TransientCode a.code → as.length = 10
  verdict : if ok then ∃ a accepted, as.getLast? = some a ∧ v = Spec.verdict a.code a.run.http accepted ∧
      (accepted = true → as.dropLast.all (·.run.frags.isEmpty) = true → a.run.http = some 200 ∧
        (incoming (h.key.map (fun k => env.ks k id)) 0 a.run.frags.flatten).take 4 = zstdMagic)
    else v = .broken
  err : h'.err = errAfter h.err v
  failed : res = none ↔ v = .broken ∨ v = .counted ∧ h'.err > 10
  data : ∀ n, res = some (n + 1) → v = .processed ∧ env.H (out'.take (n + 1)) = id ∧ n + 1 ≤ out'.length

theorem wp_request {env : Env} (hz : Sane env) {h : Http} {id : Id} {out : Bytes} {w : World}
    (hs : ShortFrags w.net) (hsz : h.size < 2 ^ 63) (hid : id.length = 32) (herr : h.err ≤ 10) :
    wp (httpGet env h id out)
      (fun a w' => a.2.1.size < 2 ^ 63 ∧ a.2.2.length = out.length ∧ ShortFrags w'.net ∧
        ∃ v ok as, Request env h id w v ok as a.1 a.2.2 a.2.1 w')
      (fun s w' => s = .killed ∧ ∃ as, as.length ≤ 9 ∧ (∀ a ∈ as, TransientCode a.code ∧ a.Possible) ∧
        w'.log = w.log ++ attemptLog (chunkUrl h.base h.key.isSome id) 0 as ++ [.http (chunkUrl h.base h.key.isSome id)] ∧
        w' = { w with mem := w'.mem, net := [], log := w'.log } ∧
        w.net.map (· (chunkUrl h.base h.key.isSome id)) = as.map (·.run)) w := by
  have hu := urlOf_eq h id (by omega)
  refine wp_mono (wp_httpGet hz hs hsz hid (by omega)) (fun a w' g => ?_) (fun s w' g => ?_)
  · obtain ⟨g1, g2, g3⟩ := g
    rcases g3 with ⟨g3, g4⟩ | ⟨as1, last, r, w1, g3, g4, g5, g6, g7, g8⟩
    · subst g3
      refine ⟨g1, g2, by rw [g4]; exact hs, .broken, false, [], ?_⟩
      refine ⟨by simp, ⟨by simp, by simp⟩, by rw [g4]; simp [attemptLog], ⟨[], by rw [g4]; simp, rfl⟩, by rw [g4], ⟨rfl, rfl⟩, by simp, by simp, rfl, by simp, by simp⟩
    · have hs' : ShortFrags w'.net := hs.suffix (by have := attempted_netOnly g4; rw [g3] at this; exact this)
      refine ⟨g1, g2, hs', Spec.verdict last.code last.run.http (decide (r.st = .streaming)), true, as1 ++ [last], ?_⟩
      have hlast : (as1 ++ [last]).getLast? = some last := by simp
      refine ⟨?_, g4.consecutive, ?_, ?_, ?_, ⟨g8.base, g8.key⟩, ?_, ?_, g8.err, ?_, ?_⟩
      · simp; omega
      · rw [g4.log, hu, g3]
      · rw [← hu]
        have := g4.net
        rw [g3] at this
        exact this
      · rw [g4.same, g3]
      · intro b hb
        rw [hlast] at hb
        simp only [Option.some.injEq] at hb
        subst hb
        intro ht
        simp [g6 ht]
      · simp only [if_true]
        refine ⟨last, _, hlast, rfl, ?_⟩
        intro hacc hall
        simp only [decide_eq_true_eq] at hacc
        have hb : ∀ b ∈ as1, b.run.frags = [] := by
          intro b hb
          simp only [List.dropLast_concat, List.all_eq_true, List.isEmpty_iff] at hall
          exact hall b hb
        refine ⟨Classical.byContradiction (fun hne => g4.refused rfl as1 last rfl hb hne hacc), ?_⟩
        exact g4.magic rfl rfl rfl as1 last rfl hb hacc
      · rw [g8.res, g8.err]
        generalize Spec.verdict last.code last.run.http (decide (r.st = .streaming)) = v
        cases v <;> simp [resultOf, errAfter]
        all_goals first | omega | (split <;> simp)
      · intro n hn
        rw [g8.res] at hn
        generalize Spec.verdict last.code last.run.http (decide (r.st = .streaming)) = v at hn
        cases v <;> simp only [resultOf] at hn
        · split at hn <;> simp at hn
        · cases hn
        · simp at hn
        · simp at hn
        · split at hn
          · next hh =>
            simp only [Option.some.injEq] at hn
            refine ⟨rfl, by rw [← hn]; exact hh, ?_⟩
            rw [g7]
            have := g4.ok.written
            have := g4.ok.out
            omega
          · simp at hn
  · obtain ⟨g1, as, r, w1, w2, g3, g4, g5, g6, g7, g8⟩ := g
    refine ⟨g1, as, g5, fun a ha => ⟨g6 a ha, g4.consecutive.1 a ha⟩, ?_, ?_, ?_⟩
    · rw [g8]; simp only; rw [g4.log, hu, g3]
    · rw [g8]; simp only; rw [g4.same, g7, g3]
    · obtain ⟨ns, n1, n2⟩ := g4.net
      rw [g7, List.append_nil, g3] at n1
      rw [← hu, n1]; exact n2

/-! ### C19, C20 -/

theorem httpAll_sound {env : Env} (hz : Sane env) (ids : List Id) : ∀ (h : Http) (out : Bytes) (w : World),
    ShortFrags w.net → h.size < 2 ^ 63 → h.err ≤ 10 → (∀ id ∈ ids, id.length = 32) →
    wp (httpAll env h out ids)
      (fun a w' => SoundAnswers env.H out.length a.1 ∧ a.1.map (·.1) <+: ids ∧ NetOnly w w')
      (fun s w' => s = .killed ∧ NetOnly w w') w := by
  induction ids with
  | nil =>
    intro h out w _ _ _ _
    exact wp_pure ⟨by simp [SoundAnswers], by simp, NetOnly.refl _⟩
  | cons id ids ih =>
    intro h out w hs hsz herr hids
    have hlog : ∀ url (as : List Attempt) i, ∀ e ∈ attemptLog url i as, (∃ u, e = Event.http u) ∨ (∃ t, e = Event.sleep t) := by
      intro url as
      induction as with
      | nil => intro i; simp [attemptLog]
      | cons a as ih =>
        intro i e he
        simp only [attemptLog, List.cons_append, List.mem_cons, List.mem_append] at he
        rcases he with he | he | he
        · exact Or.inl ⟨_, he⟩
        · split at he
          · simp at he; exact Or.inr ⟨_, he⟩
          · simp at he
        · exact ih _ e he
    unfold httpAll
    refine wp_bind (wp_mono (wp_request hz hs hsz (hids id (by simp)) herr) (fun a w1 g => ?_) (fun s w1 g => ?_))
    · obtain ⟨r, h1, out1⟩ := a
      obtain ⟨g1, g2, g3, v, ok, as, g4⟩ := g
      simp only at g1 g2 g3 g4
      have hn : NetOnly w w1 := ⟨g4.same, by obtain ⟨ns, n1, _⟩ := g4.net; exact ⟨ns, n1.symm⟩, _, g4.log, hlog _ _ _⟩
      cases r with
      | none =>
        refine wp_pure ⟨?_, by simp, hn⟩
        intro i d hd
        simp at hd
      | some n =>
        have herr1 : h1.err ≤ 10 := by
          have hf := g4.failed
          have he := g4.err
          cases v <;> simp [errAfter] at hf he <;> omega
        refine wp_bind (wp_mono (ih h1 out1 w1 g3 g1 herr1 (fun i hi => hids i (by simp [hi]))) (fun b w2 hb => ?_) (fun s w2 hb => ?_))
        · refine wp_pure ⟨?_, by simp only [List.map_cons]; exact List.cons_prefix_cons.mpr ⟨rfl, hb.2.1⟩, hn.trans hb.2.2⟩
          intro i d hd
          simp only [List.mem_cons] at hd
          rcases hd with hd | hd
          · cases n with
            | zero => simp [answer] at hd
            | succ n =>
              obtain ⟨_, d2, d3⟩ := g4.data n rfl
              simp only [answer, Prod.mk.injEq, Answer.data.injEq] at hd
              rw [hd.1, hd.2]
              refine ⟨d2, ?_, by rw [List.length_take]; omega⟩
              intro hemp
              have := congrArg List.length hemp
              simp at this
              rw [this] at d3
              simp at d3
          · have := hb.1 i d hd
            rw [g2] at this
            exact this
        · exact ⟨hb.1, hn.trans hb.2⟩
    · obtain ⟨g1, as, g2, g3, g4, g5, g6⟩ := g
      refine ⟨g1, by rw [g5], by rw [g5]; exact List.nil_suffix, attemptLog (chunkUrl h.base h.key.isSome id) 0 as ++ [.http (chunkUrl h.base h.key.isSome id)], by rw [g4, List.append_assoc], ?_⟩
      intro e he
      rcases List.mem_append.mp he with he | he
      · exact hlog _ _ _ e he
      · simp at he; exact Or.inl ⟨_, he⟩

/-- C19: in the whole life of an HTTP store, whatever the servers answer (status codes, bodies,
fragmentation, failures), whatever the decompressor makes of it within its buffer contract, and
whatever the earlier requests were, the store returns as a chunk only data that hashes to the requested
ID, is not empty and fits the buffer. -/
theorem C19_http_data_hashes_to_id {env : Env} (hz : Sane env) (arg out : Bytes) (ids : List Id) (w : World)
    (hs : ShortFrags w.net) (hids : ∀ id ∈ ids, id.length = 32) :
    wp (httpSession env arg out ids)
      (fun a _ => ∀ as h, a = some (as, h) → SoundAnswers env.H out.length as ∧ as.map (·.1) <+: ids)
      (fun _ _ => True) w := by
  unfold httpSession
  refine wp_bind (wp_mono wp_httpNew (fun a w1 g => ?_) (fun _ _ _ => trivial))
  cases a with
  | none => exact wp_pure (by simp)
  | some h =>
    obtain ⟨g1, g2⟩ := g
    obtain ⟨e1, e2, _⟩ := g2 h rfl
    refine wp_bind (wp_mono (httpAll_sound hz ids h out w1 (by rw [g1.same]; exact hs) (by omega) (by omega) hids)
      (fun b w2 hb => ?_) (fun _ _ _ => trivial))
    refine wp_pure ?_
    intro as h' e
    simp only [Option.some.injEq] at e
    subst e
    exact ⟨hb.1, hb.2.1⟩

/-- C20: the model stops with `ub` when the decode buffer is overrun, when bytes of it that were never
written are used, when the decompressor would get or use more room than the output buffer has left, when
the URL does not fit its buffer; and with `abort` when an assertion fails.  None of this happens in the
life of an HTTP store: the only way to stop is being killed while waiting for the network or reading a key
file.  The output buffer keeps its size, and no file is touched. -/
theorem C20_http_stays_in_buffers {env : Env} (hz : Sane env) (arg out : Bytes) (ids : List Id) (w : World)
    (hs : ShortFrags w.net) (hids : ∀ id ∈ ids, id.length = 32) :
    wp (httpSession env arg out ids)
      (fun _ w' => w'.data = w.data ∧ w'.dir = w.dir)
      (fun s w' => s = .killed ∧ w'.data = w.data ∧ w'.dir = w.dir) w := by
  unfold httpSession
  refine wp_bind (wp_mono wp_httpNew (fun a w1 g => ?_) (fun _ w1 g => ⟨g.1, by rw [g.2.same], by rw [g.2.same]⟩))
  cases a with
  | none => exact wp_pure ⟨by rw [g.1.same], by rw [g.1.same]⟩
  | some h =>
    obtain ⟨g1, g2⟩ := g
    obtain ⟨e1, e2, _⟩ := g2 h rfl
    refine wp_bind (wp_mono (httpAll_sound hz ids h out w1 (by rw [g1.same]; exact hs) (by omega) (by omega) hids)
      (fun b w2 hb => ?_) (fun s w2 hb => ?_))
    · exact wp_pure ⟨by rw [hb.2.2.same, g1.same], by rw [hb.2.2.same, g1.same]⟩
    · exact ⟨hb.1, by rw [hb.2.same, g1.same], by rw [hb.2.same, g1.same]⟩

/-- C20 (decode buffer): during a request the filled part of the decode buffer never exceeds its size,
and the position in the output buffer never exceeds the buffer, after any fragments from any such state. -/
theorem C20_decode_buffer_invariant {env : Env} (hz : Sane env) (ks : Option (Nat → UInt8)) (http : Option Nat)
    (r : Req) (fs : List Bytes) (w : World) (h1 : r.written ≤ r.out.length) (h2 : r.fill.length ≤ r.size) (h3 : r.size < 2 ^ 63)
    (hs : ∀ x ∈ fs, x.length < 2 ^ 32) :
    wp (deliver env ks http r fs)
      (fun a _ => a.2.out.length = r.out.length ∧ a.2.written ≤ a.2.out.length ∧ a.2.fill.length ≤ a.2.size ∧ a.2.size < 2 ^ 63)
      (fun _ _ => False) w := by
  refine wp_mono (wp_deliver hz fs r w ⟨rfl, h1, h2, h3⟩ hs) (fun a _ h => ?_) (fun _ _ h => h)
  obtain ⟨_, h, _⟩ := h
  exact ⟨h.out, by rw [h.out]; exact h.written, h.fill, h.size⟩

/-! ### Histories: C22, C24, C25 -/

/-- One request in the life of an HTTP store: the ID, the download attempts, what became of it, and the
store's answer. -/
structure Rec where
  id : Id
  as : List Attempt
  v : Verdict
  ans : Answer

/-- Why request `r` got its verdict: no attempt at all (curl could not store the URL), or the last attempt
decides.  Data is only `accepted` by the decompressor if the server says 200 and the (decrypted) body
starts with the zstd magic; this is stated for requests without earlier partial bodies. -/
def Rec.Justified (ks : Id → Option (Nat → UInt8)) (r : Rec) : Prop :=
  (r.as = [] ∧ r.v = .broken) ∨
  ∃ a accepted, r.as.getLast? = some a ∧ r.v = verdict a.code a.run.http accepted ∧
    (accepted = true → r.as.dropLast.all (·.run.frags.isEmpty) = true → a.run.http = some 200 ∧
      (incoming (ks r.id) 0 a.run.frags.flatten).take 4 = [0x28, 0xb5, 0x2f, 0xfd])

/-- The log of a list of requests. -/
def recLog (url : Id → Bytes) (recs : List Rec) : List Event := recs.flatMap (fun r => attemptLog (url r.id) 0 r.as)

/-- The runs servers made in a list of requests. -/
def recRuns (recs : List Rec) : List CurlRun := recs.flatMap (fun r => r.as.map (·.run))

/-- History of a store from error counter `e` on. -/
structure History (ks : Id → Option (Nat → UInt8)) (e : Nat) (recs : List Rec) : Prop where
  policy : ∀ r ∈ recs, Policy r.as
  justified : ∀ r ∈ recs, r.Justified ks
  failed : ∀ pre r post, recs = pre ++ r :: post →
    (r.ans = .failed ↔ r.v = .broken ∨ r.v = .counted ∧ (pre.map (·.v) ++ [r.v]).foldl errAfter e > 10)
  data : ∀ r ∈ recs, ∀ d, r.ans = .data d → r.v = .processed
  stops : ∀ pre r post, recs = pre ++ r :: post → r.ans = .failed → post = []

theorem History.nil (ks : Id → Option (Nat → UInt8)) (e : Nat) : History ks e [] :=
  ⟨by simp, by simp, by simp, by simp, by simp⟩

theorem History.cons {ks : Id → Option (Nat → UInt8)} {e : Nat} {r : Rec} {recs : List Rec} (h1 : Policy r.as) (h2 : r.Justified ks)
    (h3 : r.ans = .failed ↔ r.v = .broken ∨ r.v = .counted ∧ errAfter e r.v > 10)
    (h4 : ∀ d, r.ans = .data d → r.v = .processed) (h5 : r.ans = .failed → recs = [])
    (h : History ks (errAfter e r.v) recs) : History ks e (r :: recs) := by
  refine ⟨?_, ?_, ?_, ?_, ?_⟩
  · intro x hx
    rcases List.mem_cons.mp hx with hx | hx
    · rw [hx]; exact h1
    · exact h.policy x hx
  · intro x hx
    rcases List.mem_cons.mp hx with hx | hx
    · rw [hx]; exact h2
    · exact h.justified x hx
  · intro pre x post he
    cases pre with
    | nil =>
      simp only [List.nil_append, List.cons.injEq] at he
      rw [← he.1]
      simpa using h3
    | cons y pre =>
      simp only [List.cons_append, List.cons.injEq] at he
      have := h.failed pre x post he.2
      rw [this, ← he.1]
      simp
  · intro x hx
    rcases List.mem_cons.mp hx with hx | hx
    · rw [hx]; exact h4
    · exact h.data x hx
  · intro pre x post he
    cases pre with
    | nil =>
      simp only [List.nil_append, List.cons.injEq] at he
      rw [← he.1, ← he.2]
      exact h5
    | cons y pre =>
      simp only [List.cons_append, List.cons.injEq] at he
      exact h.stops pre x post he.2

theorem request_justified {env : Env} {h h' : Http} {id : Id} {w w' : World} {v : Verdict} {ok : Bool} {as : List Attempt} {res : Option Nat}
    {out' : Bytes} (g : Request env h id w v ok as res out' h' w') (ans : Answer) :
    Policy as ∧ (Rec.mk id as v ans).Justified (fun id => h.key.map (fun k => env.ks k id)) := by
  cases ok with
  | false =>
    have e := g.count
    have e' := g.verdict
    simp only [Bool.false_eq_true, if_false] at e e'
    subst e
    exact ⟨⟨⟨by simp, by simp⟩, by simp, by simp⟩, Or.inl ⟨rfl, e'⟩⟩
  | true =>
    have e := g.count
    have e' := g.verdict
    simp only [if_true] at e e'
    exact ⟨⟨g.consecutive, e.2, g.tenth⟩, Or.inr e'⟩

theorem wp_httpAll_history {env : Env} (hz : Sane env) (ids : List Id) : ∀ (h : Http) (out : Bytes) (w : World),
    ShortFrags w.net → h.size < 2 ^ 63 → h.err ≤ 10 → (∀ id ∈ ids, id.length = 32) →
    wp (httpAll env h out ids)
      (fun a w' => ∃ recs, a.1 = recs.map (fun r => (r.id, r.ans)) ∧
        History (fun id => h.key.map (fun k => env.ks k id)) h.err recs ∧
        a.2.err = (recs.map (·.v)).foldl errAfter h.err ∧ (a.2.base = h.base ∧ a.2.key = h.key) ∧
        recs.map (·.id) <+: ids ∧ (recs.map (·.id) = ids ∨ ∃ r, recs.getLast? = some r ∧ r.ans = .failed) ∧
        w'.log = w.log ++ recLog (chunkUrl h.base h.key.isSome) recs ∧
        ∃ ns, w.net = ns ++ w'.net ∧ ns.length = (recRuns recs).length)
      (fun _ w' => ∃ recs id as, recs.map (·.id) ++ [id] <+: ids ∧
        History (fun id => h.key.map (fun k => env.ks k id)) h.err recs ∧
        as.length ≤ 9 ∧ (∀ a ∈ as, TransientCode a.code ∧ a.Possible) ∧
        w'.log = w.log ++ recLog (chunkUrl h.base h.key.isSome) recs ++ attemptLog (chunkUrl h.base h.key.isSome id) 0 as ++
          [.http (chunkUrl h.base h.key.isSome id)]) w := by
  induction ids with
  | nil =>
    intro h out w _ _ _ _
    refine wp_pure ⟨[], rfl, History.nil _ _, rfl, ⟨rfl, rfl⟩, by simp, by simp, by simp [recLog], [], by simp [recRuns]⟩
  | cons id ids ih =>
    intro h out w hs hsz herr hids
    unfold httpAll
    refine wp_bind (wp_mono (wp_request hz hs hsz (hids id (by simp)) herr) (fun a w1 g => ?_) (fun s w1 g => ?_))
    · obtain ⟨r, h1, out1⟩ := a
      obtain ⟨g1, g2, g3, v, ok, as, g4⟩ := g
      simp only at g1 g2 g3 g4
      have hf := g4.failed
      rw [g4.err] at hf
      cases r with
      | none =>
        obtain ⟨j1, j2⟩ := request_justified g4 .failed
        have hh : History (fun id => h.key.map (fun k => env.ks k id)) h.err [⟨id, as, v, .failed⟩] :=
          History.cons j1 j2 ⟨fun _ => hf.mp rfl, fun _ => rfl⟩ (by simp) (fun _ => rfl) (History.nil _ _)
        refine wp_pure ⟨[⟨id, as, v, .failed⟩], rfl, hh, by simp [g4.err], g4.base, by simp, Or.inr ⟨_, rfl, rfl⟩, by rw [g4.log]; simp [recLog], ?_⟩
        obtain ⟨ns, n1, n2⟩ := g4.net
        exact ⟨ns, n1, by have := congrArg List.length n2; simp at this; simp [recRuns, this]⟩
      | some n =>
        have herr1 : h1.err ≤ 10 := by
          have he := g4.err
          cases v <;> simp [errAfter] at hf he <;> omega
        obtain ⟨j1, j2⟩ := request_justified g4 (answer (some n) out1)
        have hans : answer (some n) out1 = .failed ↔ v = .broken ∨ v = .counted ∧ errAfter h.err v > 10 := by
          rw [← hf]
          cases n <;> simp [answer]
        have hdat : ∀ d, answer (some n) out1 = .data d → v = .processed := by
          intro d hd
          cases n with
          | zero => simp [answer] at hd
          | succ n => exact (g4.data n rfl).1
        have hcons : ∀ recs, History (fun id => h1.key.map (fun k => env.ks k id)) h1.err recs →
            History (fun id => h.key.map (fun k => env.ks k id)) h.err (⟨id, as, v, answer (some n) out1⟩ :: recs) := by
          intro recs hr
          rw [g4.base.2, g4.err] at hr
          refine History.cons j1 j2 hans hdat (fun hc => ?_) hr
          cases n <;> simp [answer] at hc
        refine wp_bind (wp_mono (ih h1 out1 w1 g3 g1 herr1 (fun i hi => hids i (by simp [hi]))) (fun b w2 hb => ?_) (fun s w2 hb => ?_))
        · obtain ⟨recs, b1, b2, b3, b3', b4, b5, b6, ns', b7, b8⟩ := hb
          refine wp_pure ⟨⟨id, as, v, answer (some n) out1⟩ :: recs, by simp only [b1, List.map_cons], hcons recs b2, ?_, ?_, ?_, ?_, ?_, ?_⟩
          · rw [b3, g4.err]; rfl
          · exact ⟨b3'.1.trans g4.base.1, b3'.2.trans g4.base.2⟩
          · simp only [List.map_cons]; exact List.cons_prefix_cons.mpr ⟨rfl, b4⟩
          · rcases b5 with b5 | ⟨r, r1, r2⟩
            · left; simp [b5]
            · right
              refine ⟨r, ?_, r2⟩
              rw [List.getLast?_cons, r1]; rfl
          · rw [b6, g4.log, g4.base.1, g4.base.2]
            simp [recLog]
          · obtain ⟨ns, n1, n2⟩ := g4.net
            refine ⟨ns ++ ns', by rw [n1, b7, List.append_assoc], ?_⟩
            have := congrArg List.length n2
            simp at this
            simp [recRuns, this] at b8 ⊢
            omega
        · obtain ⟨recs, id', as', b1, b2, b3, b4, b5⟩ := hb
          refine ⟨⟨id, as, v, answer (some n) out1⟩ :: recs, id', as', ?_, hcons recs b2, b3, b4, ?_⟩
          · simp only [List.map_cons, List.cons_append]; exact List.cons_prefix_cons.mpr ⟨rfl, b1⟩
          · rw [b5, g4.log, g4.base.1, g4.base.2]
            simp [recLog]
    · obtain ⟨g1, as, g2, g3, g4, g5, g6⟩ := g
      exact ⟨[], id, as, by simp, History.nil _ _, g2, g3, by rw [g4]; simp [recLog]⟩

theorem foldl_errAfter (vs : List Verdict) : vs.foldl errAfter 0 = failuresSince vs := by
  have key : ∀ ws : List Verdict, ws.reverse.foldl errAfter 0 = ((ws.takeWhile (· ≠ .processed)).filter (· = .counted)).length := by
    intro ws
    induction ws with
    | nil => rfl
    | cons v ws ih =>
      rw [List.reverse_cons, List.foldl_append, ih]
      cases v <;> simp [errAfter]
  have := key vs.reverse
  rw [List.reverse_reverse] at this
  exact this

theorem slept_append (a b : List Event) : slept (a ++ b) = slept a + slept b := by
  simp [slept, List.map_append, List.sum_append]

theorem slept_attemptLog (url : Bytes) (as : List Attempt) : ∀ i,
    slept (attemptLog url i as) ≤ ((List.range' i as.length).map backoff).sum := by
  induction as with
  | nil => intro i; simp [attemptLog, slept]
  | cons a as ih =>
    intro i
    simp only [attemptLog, slept_append, List.length_cons, List.range'_succ, List.map_cons, List.sum_cons]
    have := ih (i + 1)
    by_cases h : TransientCode a.code
    · simp only [h, if_true, slept, List.map_cons, List.map_nil, List.sum_cons, List.sum_nil] at this ⊢
      omega
    · simp only [h, if_false, slept, List.map_cons, List.map_nil, List.sum_cons, List.sum_nil] at this ⊢
      omega

theorem policy_wait {as : List Attempt} (url : Bytes) (h : as.length ≤ 10) : slept (attemptLog url 0 as) ≤ 52600000 := by
  have key : ∀ n, n ≤ 10 → ((List.range' 0 n).map backoff).sum ≤ 52600000 := by decide
  exact Nat.le_trans (slept_attemptLog url as 0) (key _ h)

theorem policy_wait_between {as : List Attempt} (url : Bytes) (h : as.length ≤ 10) : slept (attemptLog url 0 as.dropLast) ≤ 42600000 := by
  have key : ∀ n, n ≤ 9 → ((List.range' 0 n).map backoff).sum ≤ 42600000 := by decide
  exact Nat.le_trans (slept_attemptLog url as.dropLast 0) (key _ (by simp; omega))

/-- C22 without the bound of 42.6 s on the total waiting time.  In the whole life of an HTTP store every
request that is carried out makes its attempts by the policy — at most ten; all but the last transient
failures; it ends before the tenth only at an attempt that is no transient failure; none at all only if
memory for the URL is lacking — with waiting times of 200 ms doubling up to 10 s after each transient
failure (`attemptLog`).  In total a request waits at most 52.6 s, of which at most 42.6 s before its last
attempt.  If the program is killed in the middle, the same holds for what had been done. -/
theorem C22_retry_policy_partial {env : Env} (hz : Sane env) (arg out : Bytes) (ids : List Id) (w : World)
    (hs : ShortFrags w.net) (hids : ∀ id ∈ ids, id.length = 32) :
    wp (httpSession env arg out ids)
      (fun a w' => ∀ as h, a = some (as, h) → ∃ recs, as = recs.map (fun r => (r.id, r.ans)) ∧
        w'.log = w.log ++ recLog (chunkUrl h.base h.key.isSome) recs ∧
        ∀ r ∈ recs, Policy r.as ∧ (r.as = [] → r.ans = .failed) ∧
          slept (attemptLog (chunkUrl h.base h.key.isSome r.id) 0 r.as) ≤ 52600000 ∧
          slept (attemptLog (chunkUrl h.base h.key.isSome r.id) 0 r.as.dropLast) ≤ 42600000)
      (fun _ w' => w'.log = w.log ∨ ∃ url recs id as,
        w'.log = w.log ++ recLog url recs ++ attemptLog (url id) 0 as ++ [.http (url id)] ∧
        (∀ r ∈ recs, Policy r.as) ∧ as.length ≤ 9 ∧ ∀ a ∈ as, TransientCode a.code) w := by
  unfold httpSession
  refine wp_bind (wp_mono wp_httpNew (fun a w1 g => ?_) (fun _ w1 g => Or.inl (by rw [g.2.same])))
  cases a with
  | none => exact wp_pure (by simp)
  | some h =>
    obtain ⟨g1, g2⟩ := g
    obtain ⟨e1, e2, _⟩ := g2 h rfl
    have hl : w1.log = w.log := by rw [g1.same]
    refine wp_bind (wp_mono (wp_httpAll_history hz ids h out w1 (by rw [g1.same]; exact hs) (by omega) (by omega) hids)
      (fun b w2 hb => ?_) (fun s w2 hb => ?_))
    · refine wp_pure ?_
      intro as h' e
      simp only [Option.some.injEq] at e
      subst e
      obtain ⟨recs, b1, b2, b3, ⟨hb1, hb2⟩, b4, b5, b6, _⟩ := hb
      simp only at hb1 hb2
      refine ⟨recs, b1, by rw [b6, hl, hb1, hb2], ?_⟩
      intro r hr
      have hp := b2.policy r hr
      refine ⟨hp, ?_, policy_wait _ hp.most, policy_wait_between _ hp.most⟩
      intro hnil
      obtain ⟨pre, post, he⟩ := List.append_of_mem hr
      rw [b2.failed pre r post he]
      rcases b2.justified r hr with j | ⟨a, _, j, _⟩
      · exact Or.inl j.2
      · rw [hnil] at j; cases j
    · obtain ⟨recs, id, as, b1, b2, b3, b4, b5⟩ := hb
      exact Or.inr ⟨_, recs, id, as, by rw [b5, hl], b2.policy, b3, fun a ha => (b4 a ha).1⟩

/-- C24: in the whole life of an HTTP store the error counter is the number of unrecovered failures since
the last completely processed response, where what counts as which is decided by the last attempt of each
request (`verdict`); a request is answered with a failure exactly if it cannot be carried out at all or is
an unrecovered failure and the number exceeds 10; and nothing is asked after a failure.  A response is
`processed` when the decompressor accepted all parts of a 200 response starting with the zstd magic (even
if the result is then not the chunk). -/
theorem C24_error_accounting {env : Env} (hz : Sane env) (arg out : Bytes) (ids : List Id) (w : World)
    (hs : ShortFrags w.net) (hids : ∀ id ∈ ids, id.length = 32) :
    wp (httpSession env arg out ids)
      (fun a w' => ∀ as h, a = some (as, h) → ∃ recs, as = recs.map (fun r => (r.id, r.ans)) ∧
        w'.log = w.log ++ recLog (chunkUrl h.base h.key.isSome) recs ∧
        h.err = failuresSince (recs.map (·.v)) ∧
        (∀ r ∈ recs, r.Justified (fun id => h.key.map (fun k => env.ks k id))) ∧
        (∀ pre r post, recs = pre ++ r :: post →
          (r.ans = .failed ↔ r.v = .broken ∨ r.v = .counted ∧ failuresSince ((pre ++ [r]).map (·.v)) > 10) ∧
          (r.ans = .failed → post = [])) ∧
        (∀ r ∈ recs, ∀ d, r.ans = .data d → r.v = .processed) ∧
        (recs.map (·.id) = ids ∨ ∃ r, recs.getLast? = some r ∧ r.ans = .failed))
      (fun _ _ => True) w := by
  unfold httpSession
  refine wp_bind (wp_mono wp_httpNew (fun a w1 g => ?_) (fun _ _ _ => trivial))
  cases a with
  | none => exact wp_pure (by simp)
  | some h =>
    obtain ⟨g1, g2⟩ := g
    obtain ⟨e1, e2, _⟩ := g2 h rfl
    have hl : w1.log = w.log := by rw [g1.same]
    refine wp_bind (wp_mono (wp_httpAll_history hz ids h out w1 (by rw [g1.same]; exact hs) (by omega) (by omega) hids)
      (fun b w2 hb => ?_) (fun _ _ _ => trivial))
    refine wp_pure ?_
    intro as h' e
    simp only [Option.some.injEq] at e
    subst e
    obtain ⟨recs, b1, b2, b3, ⟨hb1, hb2⟩, b4, b5, b6, _⟩ := hb
    rw [e1] at b2 b3
    refine ⟨recs, b1, by rw [b6, hl, hb1, hb2], by rw [← foldl_errAfter]; exact b3, by rw [hb2]; exact b2.justified, ?_, b2.data, b5⟩
    intro pre r post he
    refine ⟨?_, ?_⟩
    · rw [← foldl_errAfter, List.map_append]
      exact b2.failed pre r post he
    · exact b2.stops pre r post he

/-! ### C25 -/

/-- C25: every URL an HTTP store requests is the URL of one of the requested chunks below the base URL, which
is the argument without fragment and without one trailing slash; it is the one for encrypted chunks exactly
if the fragment configures a key.  It always fits the buffer of `base.length + 81` bytes (with its
terminator); an overrun would be undefined behaviour. -/
theorem C25_url_layout {env : Env} (hz : Sane env) (arg out : Bytes) (ids : List Id) (w : World)
    (hs : ShortFrags w.net) (hids : ∀ id ∈ ids, id.length = 32) :
    wp (httpSession env arg out ids)
      (fun a w' => ∀ as h, a = some (as, h) → ∃ base frag key evs, BaseOf arg base frag ∧
        ParamsKey (KeyOf env.getenv w) (frag.getD []) key ∧ w'.log = w.log ++ evs ∧
        ∀ url, Event.http url ∈ evs → ∃ id ∈ ids, url = chunkUrl base key.isSome id ∧ url.length + 1 ≤ base.length + 81)
      (fun s w' => s = .killed ∧ (w'.log = w.log ∨ ∃ base frag key evs, BaseOf arg base frag ∧
        ParamsKey (KeyOf env.getenv w) (frag.getD []) key ∧ w'.log = w.log ++ evs ∧
        ∀ url, Event.http url ∈ evs → ∃ id ∈ ids, url = chunkUrl base key.isSome id ∧ url.length + 1 ≤ base.length + 81)) w := by
  have hurl : ∀ (as : List Attempt) (u url : Bytes) i, Event.http u ∈ attemptLog url i as → u = url := by
    intro as u url
    induction as with
    | nil => intro i h; simp [attemptLog] at h
    | cons a as ih =>
      intro i h
      simp only [attemptLog, List.cons_append, List.mem_cons, List.mem_append, Event.http.injEq] at h
      rcases h with h | h | h
      · exact h
      · split at h <;> simp at h
      · exact ih _ h
  have hlen : ∀ (base : Bytes) b (id : Id), id.length = 32 → (chunkUrl base b id).length + 1 ≤ base.length + 81 := by
    intro base b id hid
    unfold chunkUrl
    have : (hexString id).length = 64 := by rw [hexString_length, hid]
    cases b <;> simp [this, str] <;> omega
  have hrec : ∀ (url : Id → Bytes) (recs : List Rec) u, Event.http u ∈ recLog url recs → ∃ r ∈ recs, u = url r.id := by
    intro url recs u h
    unfold recLog at h
    obtain ⟨r, hr, h⟩ := List.mem_flatMap.mp h
    exact ⟨r, hr, hurl _ _ _ _ h⟩
  unfold httpSession
  refine wp_bind (wp_mono wp_httpNew (fun a w1 g => ?_) (fun _ w1 g => ⟨g.1, Or.inl (by rw [g.2.same])⟩))
  cases a with
  | none => exact wp_pure (by simp)
  | some h =>
    obtain ⟨g1, g2⟩ := g
    obtain ⟨e1, e2, frag, hbase, hkey⟩ := g2 h rfl
    replace hkey := ParamsKey.imp (fun s k hh => (specKey_iff _ _ _ _).mp hh) hkey
    have hl : w1.log = w.log := by rw [g1.same]
    have hsw : ShortFrags w1.net := by rw [g1.same]; exact hs
    refine wp_bind (wp_mono (wp_and (httpAll_sound hz ids h out w1 hsw (by omega) (by omega) hids) (wp_httpAll_history hz ids h out w1 hsw (by omega) (by omega) hids))
      (fun b w2 hb => ?_) (fun s w2 hb => ?_))
    · refine wp_pure ?_
      intro as h' e
      simp only [Option.some.injEq] at e
      subst e
      obtain ⟨_, recs, b1, b2, b3, ⟨hb1, hb2⟩, b4, b5, b6, _⟩ := hb
      refine ⟨h.base, frag, h.key, _, hbase, hkey, by rw [b6, hl], ?_⟩
      intro url hu
      obtain ⟨r, hr, e⟩ := hrec _ _ _ hu
      have hid : r.id ∈ ids := b4.subset (List.mem_map_of_mem hr)
      exact ⟨r.id, hid, e, by rw [e]; exact hlen _ _ _ (hids _ hid)⟩
    · obtain ⟨hk, recs, id, as, b1, b2, b3, b4, b5⟩ := hb
      refine ⟨hk.1, Or.inr ⟨h.base, frag, h.key, _, hbase, hkey, by rw [b5, hl, List.append_assoc, List.append_assoc], ?_⟩⟩
      intro url hu
      rcases List.mem_append.mp hu with hu | hu
      · obtain ⟨r, hr, e⟩ := hrec _ _ _ hu
        have hid : r.id ∈ ids := b1.subset (by simp only [List.mem_append]; exact Or.inl (List.mem_map_of_mem hr))
        exact ⟨r.id, hid, e, by rw [e]; exact hlen _ _ _ (hids _ hid)⟩
      · have hid : id ∈ ids := b1.subset (by simp)
        refine ⟨id, hid, ?_⟩
        have e : url = chunkUrl h.base h.key.isSome id := by
          rcases List.mem_append.mp hu with hu | hu
          · exact hurl _ _ _ _ hu
          · simpa using hu
        exact ⟨e, by rw [e]; exact hlen _ _ _ (hids _ hid)⟩

/-! ### Concrete cases -/

/-- A toy decompressor: frames are the zstd magic followed by the data; consumes everything at once. -/
def toyZstd (hist : List (Nat × Bytes)) (room : Nat) (x : Bytes) : Option (Nat × Bytes) :=
  let pos := (hist.map (·.2.length)).sum
  if (x.drop (4 - pos)).length ≤ room then some (x.length, x.drop (4 - pos)) else none

/-- An environment for examples. -/
def exHttpEnv : Env :=
  { toLEnv := exEnv, bufMax := 64, zstd := toyZstd, ks := fun k n i => (k.getD (i % 32) 0) + (n.getD (i % 24) 0) + UInt8.ofNat i
    evp0 := true, getenv := fun _ => none, kcapi := none }

theorem exHttpEnv_sane : Sane exHttpEnv := by
  intro hist room data k o h
  simp only [exHttpEnv, toyZstd] at h
  split at h
  · cases h; exact ⟨Nat.le_refl _, by assumption⟩
  · cases h

/-- The network delivers these runs, whatever the URL. -/
def netWorld (runs : List CurlRun) : World := { emptyWorld' with net := runs.map (fun r _ => r) }
where emptyWorld' : World := ⟨fun _ => [], fun _ => .reg, fun _ => none, 0, [], [], [], []⟩

def exChunk : Bytes := [1, 2, 3, 4, 5]

def exFrame : Bytes := [0x28, 0xb5, 0x2f, 0xfd] ++ exChunk

/-- The log of a run. -/
def logOf {α : Type} (r : Res α × World) : List Event := r.2.log

def httpAnswers (r : Res (Option (List (Id × Answer) × Http)) × World) : Option (List Answer × Nat) :=
  match r.1 with
  | .ok (some (as, h)) => some (as.map Prod.snd, h.err)
  | _ => none

/-- Ten timeouts, then a missing chunk, then a chunk in two pieces of which the first is shorter than the
magic: three answers, 52.6 s of waiting. -/
example : httpAnswers (httpSession exHttpEnv (str "http://h/") (List.replicate 8 0)
      [exH32 exChunk, List.replicate 32 9, exH32 exChunk]
      (netWorld (List.replicate 10 ⟨[], 28, some 0⟩ ++ [⟨[], 0, some 404⟩, ⟨[exFrame.take 3, exFrame.drop 3], 0, some 200⟩]))) =
    some ([.notFound, .notFound, .data exChunk], 0) ∧
    slept (logOf (httpSession exHttpEnv (str "http://h/") (List.replicate 8 0)
      [exH32 exChunk, List.replicate 32 9, exH32 exChunk]
      (netWorld (List.replicate 10 ⟨[], 28, some 0⟩ ++ [⟨[], 0, some 404⟩, ⟨[exFrame.take 3, exFrame.drop 3], 0, some 200⟩])))) = 52600000 := by
  decide +kernel

example : ShortFrags (netWorld [⟨[], 0, some 404⟩, ⟨[exFrame.take 3, exFrame.drop 3], 0, some 200⟩]).net := by
  intro f hf url x hx
  simp only [netWorld, List.map_cons, List.map_nil, List.mem_cons, List.not_mem_nil, or_false] at hf
  rcases hf with hf | hf
  · subst hf; simp at hx
  · subst hf
    simp only [List.mem_cons, List.not_mem_nil, or_false] at hx
    rcases hx with hx | hx <;> subst hx <;> simp [exFrame, exChunk]

/-- Eleven failing requests in a row: the last one is reported as failure. -/
example : httpAnswers (httpSession exHttpEnv (str "http://h") (List.replicate 8 0) (List.replicate 12 (exH32 exChunk))
      (netWorld (List.replicate 12 ⟨[], 0, some 500⟩))) =
    some (List.replicate 10 .notFound ++ [.failed], 11) := by decide +kernel

/-- The waiting time of a run that ended. -/
def waited {α : Type} (r : Res α × World) : Option Nat :=
  match r.1 with
  | .ok _ => some (slept r.2.log)
  | .stop _ => none

attribute [local irreducible] wp in
/-- C22 as stated is false: the code also waits after the tenth attempt, and then gives up.  A request can wait
for 52.6 s in total. -/
theorem C22_total_wait_refuted : ¬ ∀ (env : Env), Sane env → ∀ (h : Http) (id : Id) (out : Bytes) (w : World), ShortFrags w.net →
    h.size < 2 ^ 63 → id.length = 32 → h.err ≤ 10 →
    wp (httpGet env h id out) (fun _ w' => slept w'.log ≤ slept w.log + 42600000) (fun _ _ => True) w := by
  intro hh
  have h1 := hh exHttpEnv exHttpEnv_sane ⟨str "http://h", none, 0, 0⟩ (exH32 exChunk) (List.replicate 8 0)
    (netWorld (List.replicate 10 ⟨[], 28, some 0⟩)) ?_ (Nat.pow_pos (by omega)) rfl (Nat.zero_le _)
  · have h2 : waited (httpGet exHttpEnv ⟨str "http://h", none, 0, 0⟩ (exH32 exChunk) (List.replicate 8 0)
        (netWorld (List.replicate 10 ⟨[], 28, some 0⟩))) = some 52600000 := by decide +kernel
    unfold wp at h1
    revert h1 h2
    generalize httpGet exHttpEnv ⟨str "http://h", none, 0, 0⟩ (exH32 exChunk) (List.replicate 8 0)
        (netWorld (List.replicate 10 ⟨[], 28, some 0⟩)) = p
    obtain ⟨a, w'⟩ := p
    intro h1 h2
    cases a with
    | stop _ => cases h2
    | ok a =>
      simp only [waited, Option.some.injEq] at h1 h2
      have h3 : slept (netWorld (List.replicate 10 ⟨[], 28, some 0⟩)).log = 0 := rfl
      omega
  · intro f hf url x hx
    simp only [netWorld, List.map_replicate, List.mem_replicate] at hf
    rw [hf.2] at hx
    simp at hx

end Csn.Props
