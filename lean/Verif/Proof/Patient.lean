import Verif.Proof.Dead
import Verif.Proof.Avail
/-
HTTP stores whose server is in order, if only now and then.
-/
namespace Csn.Proof
open Csn Spec

theorem bears_suffix {net net' : List (Bytes → CurlRun)} {base : Bytes} {enc : Bool} (h : Bears net base enc) (hs : net' <:+ net) : Bears net' base enc :=
  fun g hg => h g (hs.subset hg)

/-! ### One request -/

/-- What curl reports for a bearable attempt. -/
def FairEnd (code : Nat) (http : Option Nat) : Prop := TransientCode code ∨ (code = 0 ∨ code = 23) ∧ http ≠ none

theorem wp_perform_bears {env : Env} {ks : Option (Nat → UInt8)} {url : Bytes} {r : Req} {w : World} (h : ∀ g ∈ w.net, Bearable (g url)) :
    wp (perform env ks url r) (fun a _ => FairEnd a.1 a.2.1) (fun _ _ => True) w := by
  unfold perform
  refine wp_bind (wp_emit ?_)
  apply wp_bind
  cases hn : w.net with
  | nil => simp only [wp]
  | cons f rest =>
    simp only [wp]
    obtain ⟨h1, h2⟩ := h f (by rw [hn]; simp)
    rcases h2 with h2 | ⟨h2, h3⟩
    · refine wp_bind (wp_true _ (fun a _ => wp_pure ?_))
      dsimp only
      split
      · exact Or.inr ⟨Or.inr rfl, h2⟩
      · rcases h1 with h1 | h1
        · exact Or.inl h1
        · exact Or.inr ⟨h1, h2⟩
    · rw [h3]
      exact Or.inl h2

theorem wp_retried_bears {env : Env} {ks : Option (Nat → UInt8)} {url : Bytes} : ∀ (n wait : Nat) (r : Req) (w : World), (∀ g ∈ w.net, Bearable (g url)) →
    wp (retried env ks url n wait r) (fun a _ => FairEnd a.1 a.2.1) (fun _ _ => True) w
  | 0, wait, r, w, h => by
    unfold retried
    refine wp_bind (wp_mono (wp_perform_bears h) ?_ (fun _ _ h => h))
    rintro ⟨code, http, r⟩ w1 h1
    dsimp only
    split
    · exact wp_pure h1
    · exact wp_bind (wp_emit (wp_pure h1))
  | n + 1, wait, r, w, h => by
    unfold retried
    have hs : wp (perform env ks url r) (fun _ w' => w'.net <:+ w.net) (fun _ _ => True) w := by
      have := (shrinks_closed0 env.toLEnv).perform shrinks_netOps env ks url r w |>.net
      unfold wp
      split
      · next e => rw [e] at this; exact this
      · trivial
    refine wp_bind (wp_mono (wp_and (wp_perform_bears h) hs) ?_ (fun _ _ h => h.1))
    rintro ⟨code, http, r⟩ w1 ⟨h1, h2⟩
    dsimp only
    split
    · exact wp_pure h1
    · exact wp_bind (wp_emit (wp_retried_bears n _ r _ (fun g hg => h g (h2.subset hg))))

/-- What a question does to a store: it fails only if the counter was at its limit, and the counter goes up by one at most. -/
def Patience (h : Http) (res : Option Nat) (h' : Http) : Prop :=
  (res = none → h.err = 10) ∧ (res ≠ none → h'.err ≤ 10) ∧ h'.err ≤ h.err + 1 ∧ h'.base = h.base ∧ h'.key = h.key

theorem httpJudge_bears (env : Env) (h : Http) (id : Id) {code : Nat} {http : Option Nat} (r : Req) (hb : FairEnd code http) (he : h.err ≤ 10) :
    Patience h (httpJudge env h id code http r).1 (httpJudge env h id code http r).2.1 := by
  have hm : (h.err + 1) % 2 ^ 32 = h.err + 1 := Nat.mod_eq_of_lt (by omega)
  have inc : ∀ h' : Http, h'.err = h.err → h'.base = h.base → h'.key = h.key → Patience h (increaseErr h').1 (increaseErr h').2 := by
    intro h' e1 e2 e3
    unfold increaseErr
    dsimp only
    rw [e1, hm]
    split
    · exact ⟨fun _ => by omega, fun h => absurd rfl h, Nat.le_refl _, e2, e3⟩
    · exact ⟨by simp, fun _ => by dsimp only; omega, Nat.le_refl _, e2, e3⟩
  have same : ∀ (x : Nat) (h' : Http), h'.err ≤ h.err → h'.base = h.base → h'.key = h.key → Patience h (some x) h' :=
    fun x h' e1 e2 e3 => ⟨by simp, fun _ => by omega, by omega, e2, e3⟩
  unfold httpJudge
  dsimp only
  split
  · exact inc _ rfl rfl rfl
  · next ht =>
    rcases hb with hb | ⟨hb, hh⟩
    · exact absurd ((transient_iff _).2 hb) ht
    · rw [if_neg (by omega)]
      cases http with
      | none => exact absurd rfl hh
      | some c =>
        dsimp only
        split
        · exact same _ _ (Nat.le_refl _) rfl rfl
        · split
          · exact inc _ rfl rfl rfl
          · split
            · exact same _ _ (Nat.le_refl _) rfl rfl
            · split <;> exact same _ _ (Nat.zero_le _) rfl rfl

theorem wp_httpGet_bears {env : Env} {h : Http} {id : Id} {out : Bytes} {w : World} (hid : id.length = 32) (hd : Bears w.net h.base h.key.isSome) (he : h.err ≤ 10)
    (hm : AllMem w.mem) (hb : h.base.length < 2 ^ 62) :
    wp (httpGet env h id out) (fun a _ => Patience h a.1 a.2.1) (fun _ _ => True) w := by
  have hl := urlOf_length h id hid
  unfold httpGet
  dsimp only
  rw [if_neg (by split at hl <;> omega)]
  refine wp_bind (wp_alloc ?_)
  obtain ⟨m1, m2⟩ := hm.alloc (n := (urlOf h id).length + 1) (by split at hl <;> omega)
  rw [m1]
  simp only [Bool.not_true, Bool.false_eq_true, if_false]
  rw [urlOf_eq h id (by omega)]
  refine wp_bind (wp_mono (wp_retried_bears _ _ _ _ (fun g hg => hd g hg id hid)) ?_ (fun _ _ h => h))
  rintro ⟨code, http, r⟩ w2 h2
  exact wp_pure (httpJudge_bears env h id r h2 he)

/-! ### The chain -/

/-- Every time the store fails it has been asked eleven times, `n` times before these events. -/
def FailsLate (k n : Nat) (q : List Event) : Prop := ∀ a b, q = a ++ .failed k :: b → 11 ≤ n + timesAsked k a

theorem FailsLate.none {k n : Nat} {q : List Event} (h : Event.failed k ∉ q) : FailsLate k n q := by
  rintro a b rfl
  exact absurd (by simp) h

theorem FailsLate.append {k n : Nat} {q q' : List Event} (h : FailsLate k n q) (h' : FailsLate k (n + timesAsked k q) q') : FailsLate k n (q ++ q') := by
  intro a b e
  rcases List.append_eq_append_iff.1 e with ⟨c, rfl, e2⟩ | ⟨c, e1, e2⟩
  · rw [timesAsked_append, ← Nat.add_assoc]
    exact h' c b e2
  · cases c with
    | nil =>
      have := h' [] b e2.symm
      rw [e1] at this
      simpa [timesAsked] using this
    | cons x c =>
      simp only [List.cons_append, List.cons.injEq] at e2
      obtain ⟨rfl, rfl⟩ := e2
      exact h a c e1

theorem FailsLate.quiet {k n : Nat} {q : List Event} (h : ∀ e ∈ q, ¬ ChainEv e) : FailsLate k n q :=
  .none (fun hf => h _ hf trivial)

/-- Store number `k`, if still in use, is an HTTP store whose counter is not larger than the number of questions. -/
def PatAt (k i : Nat) (w : World) (n : Nat) (subs : List (Sub Store)) : Prop :=
  i ≤ k → ∃ sub, subs[k - i]? = some sub ∧ (sub.active = true →
    ∃ h, sub.s = .http h ∧ h.err ≤ 10 ∧ h.err ≤ n ∧ h.base.length < 2 ^ 62 ∧ AllMem w.mem ∧ Bears w.net h.base h.key.isSome)

theorem PatAt.later {k i : Nat} {w w' : World} {n n' : Nat} {subs : List (Sub Store)} (h : PatAt k i w n subs) (hl : Later w w') (hn : n ≤ n') : PatAt k i w' n' subs :=
  fun hk => by
    obtain ⟨sub, h1, h2⟩ := h hk
    refine ⟨sub, h1, fun ha => ?_⟩
    obtain ⟨x, g1, g2, g3, g4, g5, g6⟩ := h2 ha
    exact ⟨x, g1, g2, by omega, g4, g5.suffix hl.mem, bears_suffix g6 hl.net⟩

theorem PatAt.tail {k i : Nat} {w : World} {n : Nat} {s : Sub Store} {subs : List (Sub Store)} (h : PatAt k i w n (s :: subs)) : PatAt k (i + 1) w n subs :=
  fun hk => by
    obtain ⟨sub, h1, h2⟩ := h (by omega)
    rw [show k - i = k - (i + 1) + 1 by omega, List.getElem?_cons_succ] at h1
    exact ⟨sub, h1, h2⟩

theorem PatAt.cons {k i : Nat} {w : World} {n : Nat} {s : Sub Store} {subs : List (Sub Store)} (h : PatAt k (i + 1) w n subs)
    (hs : k = i → s.active = true → ∃ h, s.s = .http h ∧ h.err ≤ 10 ∧ h.err ≤ n ∧ h.base.length < 2 ^ 62 ∧ AllMem w.mem ∧ Bears w.net h.base h.key.isSome) :
    PatAt k i w n (s :: subs) :=
  fun hk => by
    by_cases hki : k = i
    · exact ⟨s, by rw [hki, Nat.sub_self]; rfl, hs hki⟩
    · obtain ⟨sub, h1, h2⟩ := h (by omega)
      refine ⟨sub, ?_, h2⟩
      rw [show k - i = k - (i + 1) + 1 by omega, List.getElem?_cons_succ]
      exact h1

theorem PatAt.head {k : Nat} {w : World} {n : Nat} {s : Sub Store} {subs : List (Sub Store)} (h : PatAt k k w n (s :: subs)) (ha : s.active = true) :
    ∃ h, s.s = .http h ∧ h.err ≤ 10 ∧ h.err ≤ n ∧ h.base.length < 2 ^ 62 ∧ AllMem w.mem ∧ Bears w.net h.base h.key.isSome := by
  obtain ⟨sub, h1, h2⟩ := h (Nat.le_refl _)
  rw [Nat.sub_self] at h1
  cases h1
  exact h2 ha

theorem wp_storeGet_pat {env : Env} {k i n : Nat} {t : Tgt} {s : Sub Store} {subs : List (Sub Store)} {id : Id} {out : Bytes} {w : World} (hid : id.length = 32)
    (h : PatAt k i w n (s :: subs)) (ha : s.active = true) :
    wp (storeGet env t s.s id out) (fun a w' => (∃ q, w'.log = w.log ++ q ∧ ∀ e ∈ q, ¬ ChainEv e) ∧ Later w w' ∧
        (k = i → (a.1 = none → 10 ≤ n) ∧
          (a.1 ≠ none → ∃ h, a.2.2.1 = .http h ∧ h.err ≤ 10 ∧ h.err ≤ n + 1 ∧ h.base.length < 2 ^ 62 ∧ AllMem w'.mem ∧ Bears w'.net h.base h.key.isSome)))
      (fun _ w' => ∃ q, w'.log = w.log ++ q ∧ ∀ e ∈ q, ¬ ChainEv e) w := by
  have h1 : wp (storeGet env t s.s id out) (fun a w' => (∃ q, w'.log = w.log ++ q ∧ ∀ e ∈ q, ¬ ChainEv e) ∧ Later w w')
      (fun _ w' => ∃ q, w'.log = w.log ++ q ∧ ∀ e ∈ q, ¬ ChainEv e) w :=
    wp_still ((noAsk_closed env.toLEnv).storeGet noAsk_netOps env rfl t s.s id out) ((shrinks_closed env.toLEnv).storeGet shrinks_netOps env rfl t s.s id out)
      (fun _ _ q e hq hn => ⟨⟨q, e, hq⟩, hn⟩) (fun _ _ q e hq _ => ⟨q, e, hq⟩)
  by_cases hk : k = i
  · subst hk
    obtain ⟨ht, g1, g2, g3, g4, g5, g6⟩ := h.head ha
    have h6 : wp (storeGet env t s.s id out) (fun a _ => ∃ h', a.2.2.1 = .http h' ∧ Patience ht a.1 h') (fun _ _ => True) w := by
      rw [g1]
      unfold storeGet
      refine wp_bind (wp_mono (wp_httpGet_bears hid g6 g2 g5 g4) ?_ (fun _ _ h => h))
      rintro ⟨r, h', out'⟩ w1 h7
      exact wp_pure ⟨h', rfl, h7⟩
    refine wp_mono (wp_and h1 h6) ?_ (fun _ _ h => h.1)
    rintro a w' ⟨⟨p1, p2⟩, h', p3, p4, p5, p6, p7, p8⟩
    refine ⟨p1, p2, fun _ => ⟨fun e => by have := p4 e; omega, fun e => ⟨h', p3, p5 e, by omega, by rw [p7]; exact g4, g5.suffix p2.mem, ?_⟩⟩⟩
    rw [p7, p8]
    exact bears_suffix g6 p2.net
  · exact wp_mono h1 (fun a w' h => ⟨h.1, h.2, fun e => absurd e hk⟩) (fun _ _ h => h)

theorem wp_chainLoop_pat {env : Env} {id : Id} (hid : id.length = 32) {k : Nat} : ∀ (subs : List (Sub Store)) (i : Nat) (t : Tgt) (out : Bytes) (w : World) (n : Nat),
    PatAt k i w n subs →
    wp (chainLoop (storeGet env) id i t subs out)
      (fun a w' => ∃ q, w'.log = w.log ++ q ∧ Later w w' ∧ FailsLate k n q ∧ PatAt k i w' (n + timesAsked k q) a.2.2.1)
      (fun _ w' => ∃ q, w'.log = w.log ++ q ∧ FailsLate k n q) w
  | [], i, t, out, w, n, h => by
    unfold chainLoop
    exact wp_pure ⟨[], by simp, Later.refl w, .none (by simp), by simpa [timesAsked] using h⟩
  | s :: subs, i, t, out, w, n, h => by
    unfold chainLoop
    split
    · next ha =>
      have ha : s.active = false := by simpa using ha
      refine wp_bind (wp_mono (wp_chainLoop_pat hid subs (i + 1) t out w n h.tail) ?_ (fun _ _ h => h))
      rintro ⟨r, t, subs', out⟩ w1 ⟨q, h1, h2, h3, h4⟩
      exact wp_pure ⟨q, h1, h2, h3, h4.cons (fun _ e => by rw [ha] at e; cases e)⟩
    · next ha =>
      have ha : s.active = true := by simpa using ha
      refine wp_bind (wp_emit ?_)
      refine wp_bind (wp_mono (wp_storeGet_pat (w := { w with log := w.log ++ [.ask i id] }) hid h ha) ?_ ?_)
      · rintro ⟨r, t, s', out⟩ w1 ⟨⟨q1, h1, h2⟩, h3, h4⟩
        have h3 : Later w w1 := ⟨h3.net, h3.mem⟩
        dsimp only at h1 h4 ⊢
        have e0 : ∀ q, timesAsked k (.ask i id :: (q1 ++ q)) = (if i = k then 1 else 0) + timesAsked k q := by
          intro q
          rw [timesAsked, timesAsked_append, timesAsked_quiet k q1 h2, Nat.zero_add]
        have l0 : FailsLate k n (.ask i id :: q1) := .none (fun hf => by
          rcases List.mem_cons.1 hf with hf | hf
          · cases hf
          · exact h2 _ hf trivial)
        have next : ∀ (s2 : Sub Store) (w2 : World) (q2 : List Event), w2.log = w1.log ++ q2 → timesAsked k q2 = 0 → Later w1 w2 →
            FailsLate k (n + if i = k then 1 else 0) q2 →
            (k = i → s2.active = true → ∃ h, s2.s = .http h ∧ h.err ≤ 10 ∧ h.err ≤ n + 1 ∧ h.base.length < 2 ^ 62 ∧ AllMem w2.mem ∧ Bears w2.net h.base h.key.isSome) →
            wp (do
              let (r, t, subs, out) ← chainLoop (storeGet env) id (i + 1) t subs out
              return (r, t, s2 :: subs, out))
            (fun a w' => ∃ q, w'.log = w.log ++ q ∧ Later w w' ∧ FailsLate k n q ∧ PatAt k i w' (n + timesAsked k q) a.2.2.1)
            (fun _ w' => ∃ q, w'.log = w.log ++ q ∧ FailsLate k n q) w2 := by
          intro s2 w2 q2 e1 e2 e3 hl hs2
          have hl2 : FailsLate k n (.ask i id :: (q1 ++ q2)) := by
            have := l0.append (q' := q2) (by
              have := e0 []
              rw [List.append_nil, timesAsked, Nat.add_zero] at this
              rw [this]; exact hl)
            simpa using this
          have hq : n + timesAsked k (.ask i id :: (q1 ++ q2)) = n + if i = k then 1 else 0 := by rw [e0, e2, Nat.add_zero]
          have h5 : PatAt k (i + 1) w2 (n + timesAsked k (.ask i id :: (q1 ++ q2))) subs := h.tail.later (h3.trans e3) (by omega)
          refine wp_bind (wp_mono (wp_chainLoop_pat hid subs (i + 1) t out w2 _ h5) ?_ ?_)
          · rintro ⟨r, t, subs', out⟩ w3 ⟨q, g1, g2, g3, g4⟩
            refine wp_pure ⟨(.ask i id :: (q1 ++ q2)) ++ q, by rw [g1, e1, h1]; simp, (h3.trans e3).trans g2, hl2.append g3, ?_⟩
            rw [timesAsked_append, ← Nat.add_assoc]
            refine g4.cons (fun hk hact => ?_)
            obtain ⟨x, b1, b2, b3, b4, b5, b6⟩ := hs2 hk hact
            refine ⟨x, b1, b2, ?_, b4, b5.suffix g2.mem, bears_suffix b6 g2.net⟩
            rw [hq, if_pos hk.symm]
            omega
          · rintro x w3 ⟨q, g1, g2⟩
            exact ⟨(.ask i id :: (q1 ++ q2)) ++ q, by rw [g1, e1, h1]; simp, hl2.append g2⟩
        split
        · refine wp_bind (wp_emit ?_)
          refine next { s with s := s', active := false } _ [.failed i] rfl rfl ⟨List.suffix_refl _, List.suffix_refl _⟩ ?_ (fun _ e => by cases e)
          intro a b e
          cases a with
          | nil =>
            simp only [List.nil_append, List.cons.injEq, Event.failed.injEq] at e
            rw [if_pos e.1]
            have := (h4 e.1.symm).1 rfl
            simp only [timesAsked]
            omega
          | cons x a => simp at e
        · next m =>
          refine wp_pure ⟨.ask i id :: q1, by rw [h1]; simp, h3, l0, ?_⟩
          refine (h.tail.later h3 (Nat.le_add_right _ _)).cons (fun hk _ => ?_)
          obtain ⟨x, b1, b2, b3, b4⟩ := (h4 hk).2 (by simp)
          refine ⟨x, b1, b2, ?_, b4⟩
          have := e0 []
          rw [List.append_nil, if_pos hk.symm] at this
          rw [this]
          omega
        · exact next { s with s := s' } w1 [] (by simp) rfl (Later.refl _) (.none (by simp)) (fun hk _ => (h4 hk).2 (by simp))
      · rintro x w1 ⟨q1, h1, h2⟩
        refine ⟨.ask i id :: q1, by rw [h1]; simp, .none (fun hf => ?_)⟩
        rcases List.mem_cons.1 hf with hf | hf
        · cases hf
        · exact h2 _ hf trivial

/-- Over a run: what store number `k` was asked, and its state. -/
def PatInv (k : Nat) (l0 : List Event) (c : Chain Store) (w : World) : Prop := ∃ q, w.log = l0 ++ q ∧ FailsLate k 0 q ∧ PatAt k 0 w (timesAsked k q) c.subs

def PatEnd (k : Nat) (l0 : List Event) (w : World) : Prop := ∃ q, w.log = l0 ++ q ∧ FailsLate k 0 q

theorem FailsLate.hushed {k n : Nat} {q : List Event} (h : ∀ e ∈ q, ¬ Loud e) : FailsLate k n q :=
  .quiet (fun e he hc => h e he (Or.inl hc.top))

theorem chainInv_pat (env : Env) (k : Nat) (l0 : List Event) : ChainInv env (PatInv k l0) (PatEnd k l0) where
  ended := by rintro c w ⟨q, h1, h2, _⟩; exact ⟨q, h1, h2⟩
  quiet := by
    rintro c w w' q ⟨q0, h1, h2, h3⟩ e hq hn
    refine ⟨q0 ++ q, by rw [e, h1, List.append_assoc], h2.append (.hushed hq), ?_⟩
    rw [timesAsked_append, timesAsked_hushed k q hq]
    exact h3.later hn (Nat.le_refl _)
  quietEnd := by
    rintro w w' q ⟨q0, h1, h2⟩ e hq
    exact ⟨q0 ++ q, by rw [e, h1, List.append_assoc], h2.append (.hushed hq)⟩
  get t c id out w hid h := by
    obtain ⟨q0, h1, h2, h3⟩ := h
    have hz : FailsLate k 0 (q0 ++ [.query id]) := h2.append (.none (by simp))
    have tz : timesAsked k (q0 ++ [.query id]) = timesAsked k q0 := by rw [timesAsked_append]; rfl
    unfold chainGet
    refine wp_bind (wp_emit (wp_bind (wp_mono (wp_chainLoop_pat (w := { w with log := w.log ++ [.query id] }) hid c.subs 0 t out (n := timesAsked k q0) h3) ?_ ?_)))
    · rintro ⟨r, t, subs', out⟩ w1 ⟨q, g1, g2, g3, g4⟩
      have hq := hz.append (q' := q) (by rw [tz, Nat.zero_add]; exact g3)
      refine wp_bind (wp_emit (wp_pure ⟨((q0 ++ [.query id]) ++ q) ++ [.answer id r], by simp [g1, h1], hq.append (.none (by simp)), ?_⟩))
      rw [timesAsked_append, timesAsked_append, tz]
      exact g4.later ⟨List.suffix_refl _, List.suffix_refl _⟩ (Nat.le_add_right _ _)
    · rintro x w1 ⟨q, g1, g2⟩
      exact ⟨(q0 ++ [.query id]) ++ q, by simp [g1, h1], hz.append (by rw [tz, Nat.zero_add]; exact g2)⟩

theorem wp_appMain_pat (env : Env) (posix : Bool) (argv0 : Bytes) (args : List Bytes) (w : World) (k : Nat) (arg : Bytes)
    (hk : (storeArgs posix argv0 args)[k]? = some arg) (ha : HttpArg (targetArg argv0 args) arg) (hl : arg.length < 2 ^ 62) (hm : AllMem w.mem)
    (hd : ∀ base frag key, BaseOf arg base frag → ParamsKey (KeyOf env.getenv w) (frag.getD []) key → Bears w.net base key.isSome) :
    wp (appMain env posix argv0 args) (fun _ w' => PatEnd k w.log w') (fun _ w' => PatEnd k w.log w') w := by
  refine wp_appMain_inv (I := PatInv k w.log) (makes_new env (targetArg argv0 args) w) ?_ ?_ ?_ (fun _ h => h) (fun _ _ h => h)
  · intro w' q e hq
    exact ⟨q, e, .hushed hq⟩
  · intro c w' q hb e hq hn
    refine ⟨chainInv_pat env k _, q, e, .hushed hq, fun _ => ?_⟩
    have hlen : k < c.subs.length := by rw [hb.length]; exact (List.getElem?_eq_some_iff.1 hk).1
    have h1 := List.getElem?_eq_getElem hlen
    refine ⟨c.subs[k], by simp, fun _ => ?_⟩
    obtain ⟨h, frag, g1, g2, g3, g4⟩ := (hb.each k _ _ h1 hk).2 ha
    have := baseOf_length g3
    exact ⟨h, g1, by omega, by omega, by omega, hm.suffix hn.mem, bears_suffix (hd _ _ _ g3 g4) hn.net⟩
  · intro c w1 h
    obtain ⟨q, h1, h2, _⟩ := h
    refine wp_finish (fun w' evs hc ht _ => ?_)
    have : PatEnd k w.log w' := ⟨q ++ evs, by rw [hc.log, h1, List.append_assoc], h2.append (.quiet
      (fun e he => by rcases ht e he with ⟨n, rfl⟩ | ⟨q, h, rfl⟩ <;> exact id))⟩
    exact ⟨this, fun _ => this⟩

end Csn.Proof
