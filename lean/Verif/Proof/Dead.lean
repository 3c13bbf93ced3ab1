import Verif.Proof.Net
import Verif.Spec.Dead
/-
HTTP stores whose server is out of order.
-/
namespace Csn.Proof
open Csn Spec

theorem timesAsked_append (k : Nat) : ∀ a b : List Event, timesAsked k (a ++ b) = timesAsked k a + timesAsked k b
  | [], b => by simp [timesAsked]
  | e :: a, b => by
    have ih := timesAsked_append k a b
    cases e <;> simp only [List.cons_append, timesAsked, ih, Nat.add_assoc]

theorem timesAsked_quiet (k : Nat) : ∀ q : List Event, (∀ e ∈ q, ¬ ChainEv e) → timesAsked k q = 0
  | [], _ => rfl
  | e :: q, h => by
    have ih := timesAsked_quiet k q (fun x hx => h x (by simp [hx]))
    have he := h e (by simp)
    cases e <;> first | exact ih | exact absurd trivial he

theorem timesAsked_hushed (k : Nat) (q : List Event) (h : ∀ e ∈ q, ¬ Loud e) : timesAsked k q = 0 :=
  timesAsked_quiet k q (fun e he hc => h e he (Or.inl hc.top))

theorem dead_suffix {net net' : List (Bytes → CurlRun)} {base : Bytes} {enc : Bool} (h : Dead net base enc) (hs : net' <:+ net) : Dead net' base enc :=
  fun g hg => h g (hs.subset hg)

/-! ### One request -/

/-- What curl reports for a broken attempt. -/
def BadEnd (code : Nat) (http : Option Nat) : Prop := (code ≠ 0 ∧ code ≠ 23) ∨ ∃ c, http = some c ∧ 400 ≤ c ∧ c ≠ 404 ∧ c ≠ 410

theorem wp_perform_dead {env : Env} {ks : Option (Nat → UInt8)} {url : Bytes} {r : Req} {w : World} (h : ∀ g ∈ w.net, Broken (g url)) :
    wp (perform env ks url r) (fun a _ => BadEnd a.1 a.2.1) (fun _ _ => True) w := by
  unfold perform
  refine wp_bind (wp_emit ?_)
  apply wp_bind
  cases hn : w.net with
  | nil => simp only [wp]
  | cons f rest =>
    simp only [wp]
    rcases h f (by rw [hn]; simp) with ⟨h1, h2⟩ | h1
    · rw [h1]
      exact Or.inl h2
    · exact wp_bind (wp_true _ (fun a _ => wp_pure (Or.inr h1)))

theorem wp_retried_dead {env : Env} {ks : Option (Nat → UInt8)} {url : Bytes} : ∀ (n wait : Nat) (r : Req) (w : World), (∀ g ∈ w.net, Broken (g url)) →
    wp (retried env ks url n wait r) (fun a _ => BadEnd a.1 a.2.1) (fun _ _ => True) w
  | 0, wait, r, w, h => by
    unfold retried
    refine wp_bind (wp_mono (wp_perform_dead h) ?_ (fun _ _ h => h))
    rintro ⟨code, http, r⟩ w1 h1
    dsimp only
    split
    · exact wp_pure h1
    · exact wp_bind (wp_emit (wp_pure h1))
  | n + 1, wait, r, w, h => by
    unfold retried
    have hs : wp (perform env ks url r) (fun _ w' => w'.net <:+ w.net) (fun _ _ => True) w := by
      have := (shrinks_closed0 env.toLEnv).perform shrinks_netOps env ks url r w |>.net
      unfold wp
      split
      · next e => rw [e] at this; exact this
      · trivial
    refine wp_bind (wp_mono (wp_and (wp_perform_dead h) hs) ?_ (fun _ _ h => h.1))
    rintro ⟨code, http, r⟩ w1 ⟨h1, h2⟩
    dsimp only
    split
    · exact wp_pure h1
    · exact wp_bind (wp_emit (wp_retried_dead n _ r _ (fun g hg => h g (h2.subset hg))))

/-- Such an end counts against the store, or makes it fail. -/
theorem httpJudge_dead (env : Env) (h : Http) (id : Id) {code : Nat} {http : Option Nat} (r : Req) (hb : BadEnd code http) (he : h.err ≤ 10) :
    (httpJudge env h id code http r).1 = none ∨
      (httpJudge env h id code http r).1 = some 0 ∧ (httpJudge env h id code http r).2.1.err = h.err + 1 ∧ h.err + 1 ≤ 10 ∧
      (httpJudge env h id code http r).2.1.base = h.base ∧ (httpJudge env h id code http r).2.1.key = h.key := by
  have hm : (h.err + 1) % 2 ^ 32 = h.err + 1 := Nat.mod_eq_of_lt (by omega)
  have inc : ∀ h' : Http, h'.err = h.err → h'.base = h.base → h'.key = h.key → (increaseErr h').1 = none ∨
      (increaseErr h').1 = some 0 ∧ (increaseErr h').2.err = h.err + 1 ∧ h.err + 1 ≤ 10 ∧ (increaseErr h').2.base = h.base ∧ (increaseErr h').2.key = h.key := by
    intro h' e1 e2 e3
    unfold increaseErr
    dsimp only
    rw [e1, hm]
    split
    · exact Or.inl rfl
    · exact Or.inr ⟨rfl, rfl, by omega, e2, e3⟩
  unfold httpJudge
  dsimp only
  split
  · exact inc _ rfl rfl rfl
  · split
    · exact Or.inl rfl
    · next hc =>
      rcases hb with h1 | ⟨c, rfl, h1, h2, h3⟩
      · exact absurd h1 hc
      · dsimp only
        rw [if_neg (by omega), if_pos h1]
        exact inc _ rfl rfl rfl

theorem wp_httpGet_dead {env : Env} {h : Http} {id : Id} {out : Bytes} {w : World} (hid : id.length = 32) (hd : Dead w.net h.base h.key.isSome) (he : h.err ≤ 10) :
    wp (httpGet env h id out) (fun a _ => a.1 = none ∨ a.1 = some 0 ∧ a.2.1.err = h.err + 1 ∧ h.err + 1 ≤ 10 ∧ a.2.1.base = h.base ∧ a.2.1.key = h.key) (fun _ _ => True) w := by
  have tail : wp (do
      if !(← M.alloc ((urlOf h id).length + 1)) then return (none, h, out)
      let (code, http, r) ← retried env (h.key.map (fun k => env.ks k id)) (urlOf h id) 9 200000 ⟨.started, [], 0, out, [], h.size, 0⟩
      return httpJudge env h id code http r)
      (fun a _ => a.1 = none ∨ a.1 = some 0 ∧ a.2.1.err = h.err + 1 ∧ h.err + 1 ≤ 10 ∧ a.2.1.base = h.base ∧ a.2.1.key = h.key) (fun _ _ => True) w := by
    refine wp_bind (wp_alloc ?_)
    split
    · exact wp_pure (Or.inl rfl)
    · rw [urlOf_eq h id (by omega)]
      refine wp_bind (wp_mono (wp_retried_dead _ _ _ _ (fun g hg => hd g hg id hid)) ?_ (fun _ _ h => h))
      rintro ⟨code, http, r⟩ w2 h2
      exact wp_pure (httpJudge_dead env h id r h2 he)
  unfold httpGet
  dsimp only
  split
  · exact wp_bind (wp_stop trivial)
  · exact tail

/-! ### The chain -/

/-- A store that was asked `n` times: it is out of use, or an HTTP store whose server is dead and that has counted this. -/
structure Weary (net : List (Bytes → CurlRun)) (n : Nat) (sub : Sub Store) : Prop where
  most : n ≤ 11
  active : sub.active = true → n ≤ 10 ∧ ∃ h, sub.s = .http h ∧ h.err = n ∧ Dead net h.base h.key.isSome

theorem Weary.suffix {net net' : List (Bytes → CurlRun)} {n : Nat} {sub : Sub Store} (h : Weary net n sub) (hs : net' <:+ net) : Weary net' n sub :=
  ⟨h.most, fun ha => by obtain ⟨h1, x, h2, h3, h4⟩ := h.active ha; exact ⟨h1, x, h2, h3, dead_suffix h4 hs⟩⟩

/-- Store number `k` is like this, unless it is before `i`, where the list starts. -/
def WearyAt (k i : Nat) (net : List (Bytes → CurlRun)) (n : Nat) (subs : List (Sub Store)) : Prop :=
  n ≤ 11 ∧ (i ≤ k → ∃ sub, subs[k - i]? = some sub ∧ Weary net n sub)

theorem WearyAt.suffix {k i : Nat} {net net' : List (Bytes → CurlRun)} {n : Nat} {subs : List (Sub Store)} (h : WearyAt k i net n subs) (hs : net' <:+ net) :
    WearyAt k i net' n subs :=
  ⟨h.1, fun hk => by obtain ⟨sub, h1, h2⟩ := h.2 hk; exact ⟨sub, h1, h2.suffix hs⟩⟩

theorem WearyAt.tail {k i : Nat} {net : List (Bytes → CurlRun)} {n : Nat} {s : Sub Store} {subs : List (Sub Store)} (h : WearyAt k i net n (s :: subs)) :
    WearyAt k (i + 1) net n subs :=
  ⟨h.1, fun hk => by
    obtain ⟨sub, h1, h2⟩ := h.2 (by omega)
    rw [show k - i = k - (i + 1) + 1 by omega, List.getElem?_cons_succ] at h1
    exact ⟨sub, h1, h2⟩⟩

theorem WearyAt.cons {k i : Nat} {net : List (Bytes → CurlRun)} {n : Nat} {s : Sub Store} {subs : List (Sub Store)} (h : WearyAt k (i + 1) net n subs)
    (hs : k = i → Weary net n s) : WearyAt k i net n (s :: subs) :=
  ⟨h.1, fun hk => by
    by_cases hki : k = i
    · exact ⟨s, by rw [hki, Nat.sub_self]; rfl, hs hki⟩
    · obtain ⟨sub, h1, h2⟩ := h.2 (by omega)
      refine ⟨sub, ?_, h2⟩
      rw [show k - i = k - (i + 1) + 1 by omega, List.getElem?_cons_succ]
      exact h1⟩

theorem WearyAt.head {k : Nat} {net : List (Bytes → CurlRun)} {n : Nat} {s : Sub Store} {subs : List (Sub Store)} (h : WearyAt k k net n (s :: subs)) : Weary net n s := by
  obtain ⟨sub, h1, h2⟩ := h.2 (Nat.le_refl _)
  rw [Nat.sub_self] at h1
  cases h1
  exact h2

/-- After a question to the store. -/
theorem wp_storeGet_dead {env : Env} {k i n : Nat} {t : Tgt} {s : Sub Store} {subs : List (Sub Store)} {id : Id} {out : Bytes} {w : World} (hid : id.length = 32)
    (h : WearyAt k i w.net n (s :: subs)) (ha : s.active = true) :
    wp (storeGet env t s.s id out) (fun a w' => (∃ q, w'.log = w.log ++ q ∧ timesAsked k q = 0) ∧ w'.net <:+ w.net ∧
        (k = i → n + 1 ≤ 11 ∧ (a.1 = none ∨ a.1 = some 0 ∧ n + 1 ≤ 10 ∧ ∃ h, a.2.2.1 = .http h ∧ h.err = n + 1 ∧ Dead w.net h.base h.key.isSome)))
      (fun _ w' => ∃ q, w'.log = w.log ++ q ∧ timesAsked k q = 0) w := by
  have h1 : wp (storeGet env t s.s id out) (fun a w' => (∃ q, w'.log = w.log ++ q ∧ timesAsked k q = 0) ∧ w'.net <:+ w.net)
      (fun _ w' => ∃ q, w'.log = w.log ++ q ∧ timesAsked k q = 0) w :=
    wp_still ((noAsk_closed env.toLEnv).storeGet noAsk_netOps env rfl t s.s id out) ((shrinks_closed env.toLEnv).storeGet shrinks_netOps env rfl t s.s id out)
      (fun _ _ q e hq hn => ⟨⟨q, e, timesAsked_quiet k q hq⟩, hn.net⟩) (fun _ _ q e hq _ => ⟨q, e, timesAsked_quiet k q hq⟩)
  by_cases hk : k = i
  · subst hk
    obtain ⟨h2, ht, h3, h4, h5⟩ := h.head.active ha
    have h6 : wp (storeGet env t s.s id out) (fun a _ => a.1 = none ∨ a.1 = some 0 ∧ n + 1 ≤ 10 ∧ ∃ h, a.2.2.1 = .http h ∧ h.err = n + 1 ∧ Dead w.net h.base h.key.isSome)
        (fun _ _ => True) w := by
      rw [h3]
      unfold storeGet
      refine wp_bind (wp_mono (wp_httpGet_dead hid h5 (by omega)) ?_ (fun _ _ h => h))
      rintro ⟨r, h', out'⟩ w1 h7
      refine wp_pure ?_
      rcases h7 with h7 | ⟨h7, h8, h9, h10, h11⟩
      · exact Or.inl h7
      · dsimp only at h7 h8 h10 h11
        exact Or.inr ⟨h7, by omega, h', rfl, by omega, by rw [h10, h11]; exact h5⟩
    exact wp_mono (wp_and h1 h6) (fun a w' h => ⟨h.1.1, h.1.2, fun _ => ⟨by omega, h.2⟩⟩) (fun _ _ h => h.1)
  · exact wp_mono h1 (fun a w' h => ⟨h.1, h.2, fun e => absurd e hk⟩) (fun _ _ h => h)

theorem timesAsked_ask (k i : Nat) (id : Id) : timesAsked k [.ask i id] = if i = k then 1 else 0 := rfl

theorem wp_chainLoop_dead {env : Env} {id : Id} (hid : id.length = 32) {k : Nat} : ∀ (subs : List (Sub Store)) (i : Nat) (t : Tgt) (out : Bytes) (w : World) (n : Nat),
    WearyAt k i w.net n subs →
    wp (chainLoop (storeGet env) id i t subs out)
      (fun a w' => ∃ q, w'.log = w.log ++ q ∧ w'.net <:+ w.net ∧ (k < i → timesAsked k q = 0) ∧ WearyAt k i w'.net (n + timesAsked k q) a.2.2.1)
      (fun _ w' => ∃ q, w'.log = w.log ++ q ∧ n + timesAsked k q ≤ 11) w
  | [], i, t, out, w, n, h => by
    unfold chainLoop
    exact wp_pure ⟨[], by simp, List.suffix_refl _, fun _ => rfl, by simpa [timesAsked] using h⟩
  | s :: subs, i, t, out, w, n, h => by
    unfold chainLoop
    split
    · next ha =>
      have ha : s.active = false := by simpa using ha
      refine wp_bind (wp_mono (wp_chainLoop_dead hid subs (i + 1) t out w n h.tail) ?_ (fun _ _ h => h))
      rintro ⟨r, t, subs', out⟩ w1 ⟨q, h1, h2, h3, h4⟩
      refine wp_pure ⟨q, h1, h2, fun hk => h3 (by omega), h4.cons (fun hk => ?_)⟩
      exact ⟨h4.1, fun e => by rw [ha] at e; cases e⟩
    · next ha =>
      have ha : s.active = true := by simpa using ha
      refine wp_bind (wp_emit ?_)
      have most : n + timesAsked k [.ask i id] ≤ 11 := by
        rw [timesAsked_ask]
        split
        · next hk => subst hk; have := (h.head.active ha).1; omega
        · have := h.1; omega
      refine wp_bind (wp_mono (wp_storeGet_dead (w := { w with log := w.log ++ [.ask i id] }) hid h ha) ?_ ?_)
      · rintro ⟨r, t, s', out⟩ w1 ⟨⟨q1, h1, h2⟩, h3, h4⟩
        dsimp only at h1 h3 h4 ⊢
        have next : ∀ (s2 : Sub Store) (w2 : World) (q2 : List Event), w2.log = w1.log ++ q2 → timesAsked k q2 = 0 → w2.net = w1.net →
            (k = i → Weary w1.net (n + 1) s2) →
            wp (do
              let (r, t, subs, out) ← chainLoop (storeGet env) id (i + 1) t subs out
              return (r, t, s2 :: subs, out))
            (fun a w' => ∃ q, w'.log = w.log ++ q ∧ w'.net <:+ w.net ∧ (k < i → timesAsked k q = 0) ∧ WearyAt k i w'.net (n + timesAsked k q) a.2.2.1)
            (fun _ w' => ∃ q, w'.log = w.log ++ q ∧ n + timesAsked k q ≤ 11) w2 := by
          intro s2 w2 q2 e1 e2 e3 hs2
          have hn2 : w2.net <:+ w.net := by rw [e3]; exact h3
          have h5 : WearyAt k (i + 1) w2.net (n + timesAsked k [.ask i id]) subs := by
            have := (h.suffix hn2).tail
            refine ⟨most, fun hk => ?_⟩
            rw [timesAsked_ask, if_neg (by omega)]
            exact this.2 hk
          refine wp_bind (wp_mono (wp_chainLoop_dead hid subs (i + 1) t out w2 _ h5) ?_ ?_)
          · rintro ⟨r, t, subs', out⟩ w3 ⟨q, g1, g2, g3, g4⟩
            have e4 : timesAsked k (.ask i id :: (q1 ++ (q2 ++ q))) = timesAsked k [.ask i id] + timesAsked k q := by
              rw [show Event.ask i id :: (q1 ++ (q2 ++ q)) = [Event.ask i id] ++ (q1 ++ (q2 ++ q)) from rfl, timesAsked_append, timesAsked_append, timesAsked_append, h2, e2]
              omega
            refine wp_pure ⟨.ask i id :: (q1 ++ (q2 ++ q)), by rw [g1, e1, h1]; simp, g2.trans hn2, ?_, ?_⟩
            · intro hk
              rw [e4, timesAsked_ask, if_neg (by omega), g3 (by omega)]
            · rw [e4, ← Nat.add_assoc]
              refine g4.cons (fun hk => ?_)
              have := hs2 hk
              rw [timesAsked_ask, if_pos hk.symm, g3 (by omega)]
              exact this.suffix (by rw [← e3]; exact g2)
          · rintro x w3 ⟨q, g1, g2⟩
            refine ⟨.ask i id :: (q1 ++ (q2 ++ q)), by rw [g1, e1, h1]; simp, ?_⟩
            rw [show Event.ask i id :: (q1 ++ (q2 ++ q)) = [Event.ask i id] ++ (q1 ++ (q2 ++ q)) from rfl, timesAsked_append, timesAsked_append, timesAsked_append, h2, e2]
            omega
        split
        · refine wp_bind (wp_emit ?_)
          exact next { s with s := s', active := false } _ [.failed i] rfl rfl rfl (fun hk => ⟨(h4 hk).1, by simp⟩)
        · next m =>
          have e4 : timesAsked k (.ask i id :: q1) = timesAsked k [.ask i id] := by
            rw [show Event.ask i id :: q1 = [Event.ask i id] ++ q1 from rfl, timesAsked_append, h2]; omega
          have hk : k ≠ i := fun hk => by rcases (h4 hk).2 with h5 | ⟨h5, _⟩ <;> simp at h5
          refine wp_pure ⟨.ask i id :: q1, by rw [h1]; simp, h3, ?_, ?_⟩
          · intro hk; rw [e4, timesAsked_ask, if_neg (by omega)]
          · rw [e4, timesAsked_ask, if_neg (fun e => hk e.symm)]
            exact ((h.suffix h3).tail).cons (fun e => absurd e hk)
        · refine next { s with s := s' } w1 [] (by simp) rfl rfl (fun hk => ?_)
          obtain ⟨h5, h6⟩ := h4 hk
          rcases h6 with h6 | ⟨_, h7, ht, h8, h9, h10⟩
          · simp at h6
          · exact ⟨h5, fun _ => ⟨h7, ht, h8, h9, dead_suffix h10 h3⟩⟩
      · rintro x w1 ⟨q1, h1, h2⟩
        refine ⟨.ask i id :: q1, by rw [h1]; simp, ?_⟩
        rw [show Event.ask i id :: q1 = [Event.ask i id] ++ q1 from rfl, timesAsked_append, h2]
        omega

/-- Over a run: what store number `k` was asked, and its state. -/
def DeadInv (k : Nat) (l0 : List Event) (c : Chain Store) (w : World) : Prop := ∃ q, w.log = l0 ++ q ∧ WearyAt k 0 w.net (timesAsked k q) c.subs

def DeadEnd (k : Nat) (l0 : List Event) (w : World) : Prop := ∃ q, w.log = l0 ++ q ∧ timesAsked k q ≤ 11

theorem chainInv_dead (env : Env) (k : Nat) (l0 : List Event) : ChainInv env (DeadInv k l0) (DeadEnd k l0) where
  ended := by rintro c w ⟨q, h1, h2⟩; exact ⟨q, h1, h2.1⟩
  quiet := by
    rintro c w w' q ⟨q0, h1, h2⟩ e hq hn
    refine ⟨q0 ++ q, by rw [e, h1, List.append_assoc], ?_⟩
    rw [timesAsked_append, timesAsked_hushed k q hq]
    exact h2.suffix hn.net
  quietEnd := by
    rintro w w' q ⟨q0, h1, h2⟩ e hq
    refine ⟨q0 ++ q, by rw [e, h1, List.append_assoc], ?_⟩
    rw [timesAsked_append, timesAsked_hushed k q hq]
    exact h2
  get t c id out w hid h := by
    obtain ⟨q0, h1, h2⟩ := h
    unfold chainGet
    refine wp_bind (wp_emit (wp_bind (wp_mono (wp_chainLoop_dead (w := { w with log := w.log ++ [.query id] }) hid c.subs 0 t out (n := timesAsked k q0) h2) ?_ ?_)))
    · rintro ⟨r, t, subs', out⟩ w1 ⟨q, g1, g2, g3, g4⟩
      refine wp_bind (wp_emit (wp_pure ⟨q0 ++ (.query id :: (q ++ [.answer id r])), by simp [g1, h1], ?_⟩))
      rw [show timesAsked k (q0 ++ (.query id :: (q ++ [.answer id r]))) = timesAsked k q0 + timesAsked k q by
        rw [timesAsked_append]; congr 1; show timesAsked k (q ++ [.answer id r]) = _; rw [timesAsked_append]; rfl]
      exact g4
    · rintro x w1 ⟨q, g1, g2⟩
      refine ⟨q0 ++ (.query id :: q), by simp [g1, h1], ?_⟩
      rw [timesAsked_append]
      exact g2

/-- An HTTP store as it is made from its argument. -/
def MadeNew (getenv : Bytes → Option Bytes) (w0 : World) (tpath arg : Bytes) (s : Store) : Prop :=
  HttpArg tpath arg → ∃ h frag, s = .http h ∧ h.err = 0 ∧ BaseOf arg h.base frag ∧ ParamsKey (KeyOf getenv w0) (frag.getD []) h.key

theorem makes_new (env : Env) (tpath : Bytes) (w0 : World) : Makes env tpath (MadeNew env.getenv w0 tpath) w0 := by
  intro n p t arg w hw
  unfold makeStore
  split
  · next he =>
    have he : arg = tpath := by simpa [streq] using he
    refine wp_bind (wp_true _ (fun a _ => ?_))
    rcases a with ⟨_ | _, t⟩
    · exact wp_pure (by simp)
    · refine wp_pure ?_
      intro s t' e h; exact absurd he h.1
  · split
    · refine wp_bind (wp_mono wp_httpNew ?_ (fun _ _ _ => trivial))
      rintro a w1 ⟨_, ha⟩
      cases a with
      | none => exact wp_pure (by simp)
      | some h =>
        refine wp_pure ?_
        intro s t' e
        cases e
        obtain ⟨h0, _, frag, hb, hk⟩ := ha h rfl
        exact fun _ => ⟨h, frag, rfl, h0, hb, ParamsKey.imp (fun s k hh => keyOf_same hw ((specKey_iff _ _ _ _).mp hh)) hk⟩
    · next hs =>
      refine wp_bind (wp_true _ (fun a _ => ?_))
      cases a with
      | none => exact wp_pure (by simp)
      | some l =>
        refine wp_pure ?_
        intro s t' e h
        obtain ⟨x, hx⟩ := h.2
        exact absurd ((startswith_iff _ _).2 (by rw [← hx]; simp)) hs

theorem wp_appMain_dead (env : Env) (posix : Bool) (argv0 : Bytes) (args : List Bytes) (w : World) (k : Nat) (arg : Bytes)
    (hk : (storeArgs posix argv0 args)[k]? = some arg) (ha : HttpArg (targetArg argv0 args) arg)
    (hd : ∀ base frag key, BaseOf arg base frag → ParamsKey (KeyOf env.getenv w) (frag.getD []) key → Dead w.net base key.isSome) :
    wp (appMain env posix argv0 args) (fun _ w' => DeadEnd k w.log w') (fun _ w' => DeadEnd k w.log w') w := by
  refine wp_appMain_inv (I := DeadInv k w.log) (makes_new env (targetArg argv0 args) w) ?_ ?_ ?_ (fun _ h => h) (fun _ _ h => h)
  · intro w' q e hq
    exact ⟨q, e, by rw [timesAsked_hushed k q hq]; omega⟩
  · intro c w' q hb e hq hn
    refine ⟨chainInv_dead env k _, q, e, ?_⟩
    rw [timesAsked_hushed k q hq]
    refine ⟨by omega, fun _ => ?_⟩
    have hl : k < c.subs.length := by rw [hb.length]; exact (List.getElem?_eq_some_iff.1 hk).1
    have h1 := List.getElem?_eq_getElem hl
    refine ⟨c.subs[k], by simp, by omega, fun _ => ⟨by omega, ?_⟩⟩
    obtain ⟨h, frag, g1, g2, g3, g4⟩ := (hb.each k _ _ h1 hk).2 ha
    exact ⟨h, g1, g2, dead_suffix (hd _ _ _ g3 g4) hn.net⟩
  · intro c w1 h
    obtain ⟨q, h1, h2⟩ := h
    refine wp_finish (fun w' evs hc ht _ => ?_)
    have : DeadEnd k w.log w' := ⟨q ++ evs, by rw [hc.log, h1, List.append_assoc], by
      rw [timesAsked_append, timesAsked_quiet k evs (fun e he => by rcases ht e he with ⟨n, rfl⟩ | ⟨q, h, rfl⟩ <;> exact id)]
      exact h2.1⟩
    exact ⟨this, fun _ => this⟩

end Csn.Proof
