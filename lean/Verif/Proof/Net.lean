import Verif.Proof.Walk
import Verif.Proof.HttpGet
import Verif.Proof.HttpNew
import Verif.Proof.Text
import Verif.Proof.Run
import Verif.Spec.Net
/-
Network use of whole runs.
-/
namespace Csn.Proof
open Csn Spec

theorem isNet_iff (e : Event) : isNet e = true ↔ NetEv e := by cases e <;> simp [isNet, NetEv]
theorem isChain_iff (e : Event) : isChain e = true ↔ TopEv e := by cases e <;> simp [isChain, TopEv, ChainEv]

theorem quiet_isNet {e : Event} (h : ¬ Loud e) : isNet e = false := by
  cases hn : isNet e with
  | false => rfl
  | true => exact absurd (Or.inr ((isNet_iff e).1 hn)) h
theorem quiet_isChain {e : Event} (h : ¬ Loud e) : isChain e = false := by
  cases hn : isChain e with
  | false => rfl
  | true => exact absurd (Or.inl ((isChain_iff e).1 hn)) h

section
variable {U : Nat → Id → Bytes → Prop}

theorem OnSchedule.nil : OnSchedule U [] := by intro a e b h; simp at h

theorem onSchedule_snoc {l : List Event} (h : OnSchedule U l) {e : Event}
    (he : isNet e = true → ∃ a1 k id a2 url, l = a1 ++ .ask k id :: a2 ∧ (∀ x ∈ a2, isChain x = false) ∧
      U k id url ∧ (a2 ++ [e]).filter isNet <+: retrySchedule url) : OnSchedule U (l ++ [e]) := by
  intro a x b hs hx
  rcases List.eq_nil_or_concat b with rfl | ⟨b, y, rfl⟩
  · have := List.append_inj' hs rfl
    simp only [List.cons.injEq, and_true] at this
    obtain ⟨rfl, rfl⟩ := this
    exact he hx
  · rw [List.concat_eq_append, ← List.cons_append, ← List.append_assoc] at hs
    exact h a x b (List.append_inj' hs rfl).1 hx

theorem onSchedule_quiet {l q : List Event} (h : OnSchedule U l) (hq : ∀ e ∈ q, isNet e = false) : OnSchedule U (l ++ q) := by
  induction q generalizing l with
  | nil => simpa using h
  | cons e q ih =>
    rw [show l ++ e :: q = (l ++ [e]) ++ q by simp]
    exact ih (onSchedule_snoc h (fun h1 => absurd h1 (by rw [hq e (by simp)]; simp))) (fun x hx => hq x (by simp [hx]))

/-- The log so far is on schedule. -/
def NetLog (U : Nat → Id → Bytes → Prop) (l0 : List Event) (w : World) : Prop := ∃ evs, w.log = l0 ++ evs ∧ OnSchedule U evs

/-- And store `k` was asked last, with the first `j` items of the schedule done. -/
def NetAt (U : Nat → Id → Bytes → Prop) (l0 : List Event) (k : Nat) (id : Id) (url : Bytes) (j : Nat) (w : World) : Prop :=
  ∃ a1 a2, w.log = l0 ++ (a1 ++ .ask k id :: a2) ∧ OnSchedule U (a1 ++ .ask k id :: a2) ∧ (∀ x ∈ a2, isChain x = false) ∧
    a2.filter isNet = (retrySchedule url).take j

variable {l0 : List Event}

theorem NetLog.quiet {w w' : World} {q : List Event} (h : NetLog U l0 w) (e : w'.log = w.log ++ q) (hq : ∀ e ∈ q, ¬ Loud e) : NetLog U l0 w' := by
  obtain ⟨evs, e1, h1⟩ := h
  exact ⟨evs ++ q, by rw [e, e1, List.append_assoc], onSchedule_quiet h1 (fun x hx => quiet_isNet (hq x hx))⟩

theorem NetLog.emit {w : World} (h : NetLog U l0 w) {e : Event} (he : isNet e = false) : NetLog U l0 { w with log := w.log ++ [e] } := by
  obtain ⟨evs, e1, h1⟩ := h
  exact ⟨evs ++ [e], by simp [e1], onSchedule_quiet h1 (by simpa using he)⟩

theorem NetAt.log {k : Nat} {id : Id} {url : Bytes} {j : Nat} {w : World} (h : NetAt U l0 k id url j w) : NetLog U l0 w := by
  obtain ⟨a1, a2, h1, h2, _⟩ := h
  exact ⟨_, h1, h2⟩

theorem NetLog.ask {w : World} (h : NetLog U l0 w) (k : Nat) (id : Id) (url : Bytes) : NetAt U l0 k id url 0 { w with log := w.log ++ [.ask k id] } := by
  obtain ⟨evs, e1, h1⟩ := h
  exact ⟨evs, [], by simp [e1], onSchedule_quiet h1 (by simp [isNet]), by simp, by simp⟩

theorem NetAt.quiet {k : Nat} {id : Id} {url : Bytes} {j : Nat} {w w' : World} {q : List Event} (h : NetAt U l0 k id url j w) (e : w'.log = w.log ++ q) (hq : ∀ e ∈ q, ¬ Loud e) :
    NetAt U l0 k id url j w' := by
  obtain ⟨a1, a2, h1, h2, h3, h4⟩ := h
  refine ⟨a1, a2 ++ q, by simp [e, h1], ?_, ?_, ?_⟩
  · have := onSchedule_quiet h2 (q := q) (fun x hx => quiet_isNet (hq x hx))
    simpa using this
  · intro x hx
    rcases List.mem_append.1 hx with hx | hx
    · exact h3 x hx
    · exact quiet_isChain (hq x hx)
  · rw [List.filter_append, h4, List.filter_eq_nil_iff.2 (fun x hx => by simp [quiet_isNet (hq x hx)]), List.append_nil]

theorem NetAt.step {k : Nat} {id : Id} {url : Bytes} {j : Nat} {w : World} {e : Event} (h : NetAt U l0 k id url j w) (hu : U k id url)
    (he : (retrySchedule url)[j]? = some e) (hn : isNet e = true) (hc : isChain e = false) :
    NetAt U l0 k id url (j + 1) { w with log := w.log ++ [e] } := by
  obtain ⟨a1, a2, h1, h2, h3, h4⟩ := h
  have hf : (a2 ++ [e]).filter isNet = (retrySchedule url).take (j + 1) := by
    rw [List.filter_append, h4, List.take_succ, he]
    simp [hn]
  refine ⟨a1, a2 ++ [e], by simp [h1], ?_, ?_, hf⟩
  · have := onSchedule_snoc h2 (e := e) (fun _ => ⟨a1, k, id, a2, url, rfl, h3, hu, by rw [hf]; exact List.take_prefix _ _⟩)
    simpa using this
  · intro x hx
    rcases List.mem_append.1 hx with hx | hx
    · exact h3 x hx
    · simp only [List.mem_singleton] at hx; subst hx; exact hc

theorem schedule_at (url : Bytes) : ∀ i, i < 10 → (retrySchedule url)[2 * i]? = some (.http url) ∧ (retrySchedule url)[2 * i + 1]? = some (.sleep (backoff i))
  | 0, _ => ⟨rfl, rfl⟩
  | 1, _ => ⟨rfl, rfl⟩
  | 2, _ => ⟨rfl, rfl⟩
  | 3, _ => ⟨rfl, rfl⟩
  | 4, _ => ⟨rfl, rfl⟩
  | 5, _ => ⟨rfl, rfl⟩
  | 6, _ => ⟨rfl, rfl⟩
  | 7, _ => ⟨rfl, rfl⟩
  | 8, _ => ⟨rfl, rfl⟩
  | 9, _ => ⟨rfl, rfl⟩
  | i + 10, h => absurd h (by omega)

theorem wp_perform_net {env : Env} {ks : Option (Nat → UInt8)} {k : Nat} {id : Id} {url : Bytes} {r : Req} {i : Nat} {w : World} (hi : i < 10)
    (hu : U k id url) (h : NetAt U l0 k id url (2 * i) w) :
    wp (perform env ks url r) (fun _ w' => NetAt U l0 k id url (2 * i + 1) w') (fun _ w' => NetLog U l0 w') w := by
  unfold perform
  refine wp_bind (wp_emit ?_)
  have h := h.step hu (schedule_at url i hi).1 rfl rfl
  generalize ({ w with log := w.log ++ [Event.http url] } : World) = w at h
  have hC := hushed_closed env.toLEnv
  have hm : Hushed ((fun w => match w.net with
    | [] => (.stop .killed, w)
    | f :: n => (.ok (f url), { w with net := n }) : M CurlRun) >>= fun run =>
      deliver env ks run.http r run.frags >>= fun x => pure (if x.1 then 23 else run.code, run.http, x.2)) :=
    hC.bind _ _ (hC.net url) (fun run => hC.bind _ _ (hC.deliver env _ _ _ _) (fun _ => hC.pure _))
  exact wp_mute hm (fun _ _ q e hq => h.quiet e hq) (fun _ _ q e hq => h.log.quiet e hq)

theorem wp_retried_net {env : Env} {ks : Option (Nat → UInt8)} {k : Nat} {id : Id} {url : Bytes} (hu : U k id url) : ∀ (n i : Nat) (r : Req) (w : World), n + i = 9 →
    NetAt U l0 k id url (2 * i) w → wp (retried env ks url n (backoff i) r) (fun _ w' => NetLog U l0 w') (fun _ w' => NetLog U l0 w') w
  | 0, i, r, w, hi, h => by
    unfold retried
    refine wp_bind (wp_mono (wp_perform_net (by omega) hu h) ?_ (fun _ _ h => h))
    rintro ⟨code, http, r⟩ w1 h
    dsimp only
    split
    · exact wp_pure h.log
    · exact wp_bind (wp_emit (wp_pure (h.step hu (schedule_at url i (by omega)).2 rfl rfl).log))
  | n + 1, i, r, w, hi, h => by
    unfold retried
    refine wp_bind (wp_mono (wp_perform_net (by omega) hu h) ?_ (fun _ _ h => h))
    rintro ⟨code, http, r⟩ w1 h
    dsimp only
    split
    · exact wp_pure h.log
    · refine wp_bind (wp_emit ?_)
      rw [backoff_succ]
      exact wp_retried_net hu n (i + 1) r _ (by omega) (h.step hu (schedule_at url i (by omega)).2 rfl rfl)

theorem wp_httpGet_net {env : Env} {h : Http} {id : Id} {out : Bytes} {k : Nat} {w : World} (hid : id.length = 32) (hu : U k id (chunkUrl h.base h.key.isSome id))
    (hw : NetAt U l0 k id (chunkUrl h.base h.key.isSome id) 0 w) :
    wp (httpGet env h id out) (fun a w' => NetLog U l0 w' ∧ a.2.1.base = h.base ∧ a.2.1.key = h.key) (fun _ w' => NetLog U l0 w') w := by
  have hj : ∀ code http r, (httpJudge env h id code http r).2.1.base = h.base ∧ (httpJudge env h id code http r).2.1.key = h.key := by
    intro code http r
    unfold httpJudge increaseErr
    dsimp only
    repeat' split
    all_goals exact ⟨rfl, rfl⟩
  have tail : ∀ w, NetAt U l0 k id (chunkUrl h.base h.key.isSome id) 0 w → wp (do
      if !(← M.alloc ((urlOf h id).length + 1)) then return (none, h, out)
      let (code, http, r) ← retried env (h.key.map (fun k => env.ks k id)) (urlOf h id) 9 200000 ⟨.started, [], 0, out, [], h.size, 0⟩
      return httpJudge env h id code http r) (fun a w' => NetLog U l0 w' ∧ a.2.1.base = h.base ∧ a.2.1.key = h.key) (fun _ w' => NetLog U l0 w') w := by
    intro w hw
    refine wp_bind (wp_mute ((hushed_closed env.toLEnv).alloc _) ?_ (fun _ _ q e hq => hw.log.quiet e hq))
    intro a w1 q e hq
    have hw := hw.quiet e hq
    cases a with
    | false => exact wp_pure ⟨hw.log, rfl, rfl⟩
    | true =>
      rw [urlOf_eq h id (by omega)]
      refine wp_bind (wp_mono (wp_retried_net hu 9 0 _ _ rfl hw) ?_ (fun _ _ h => h))
      rintro ⟨code, http, r⟩ w2 h2
      exact wp_pure ⟨h2, hj _ _ _⟩
  unfold httpGet
  dsimp only
  split
  · exact wp_bind (wp_stop hw.log)
  · exact tail w hw

/-- The HTTP stores of a chain, from number `i` on, have only URLs that `U` allows. -/
def HttpSubs (U : Nat → Id → Bytes → Prop) (i : Nat) (subs : List (Sub Store)) : Prop :=
  ∀ (k : Nat) (sub : Sub Store) (h : Http), subs[k]? = some sub → sub.s = .http h → ∀ id : Id, id.length = 32 → U (i + k) id (chunkUrl h.base h.key.isSome id)

theorem HttpSubs.tail {i : Nat} {s : Sub Store} {subs : List (Sub Store)} (h : HttpSubs U i (s :: subs)) : HttpSubs U (i + 1) subs := by
  intro k sub ht h1 h2 id hid
  have := h (k + 1) sub ht (by simpa using h1) h2 id hid
  rwa [show i + (k + 1) = i + 1 + k by omega] at this

theorem HttpSubs.cons {i : Nat} {s : Sub Store} {subs : List (Sub Store)} (hs : ∀ h, s.s = .http h → ∀ id : Id, id.length = 32 → U i id (chunkUrl h.base h.key.isSome id))
    (h : HttpSubs U (i + 1) subs) : HttpSubs U i (s :: subs) := by
  intro k sub ht h1 h2 id hid
  cases k with
  | zero => simp only [List.getElem?_cons_zero, Option.some.injEq] at h1; subst h1; exact hs ht h2 id hid
  | succ k =>
    have := h k sub ht (by simpa using h1) h2 id hid
    rwa [show i + 1 + k = i + (k + 1) by omega] at this

theorem wp_storeGet_net {env : Env} {t : Tgt} {s : Store} {id : Id} {out : Bytes} {k : Nat} {w : World} (hid : id.length = 32)
    (hs : ∀ h, s = .http h → ∀ id : Id, id.length = 32 → U k id (chunkUrl h.base h.key.isSome id)) (hw : NetLog U l0 w) :
    wp (storeGet env t s id out) (fun a w' => NetLog U l0 w' ∧ ∀ h, a.2.2.1 = .http h → ∀ id : Id, id.length = 32 → U k id (chunkUrl h.base h.key.isSome id))
      (fun _ w' => NetLog U l0 w') { w with log := w.log ++ [.ask k id] } := by
  cases s with
  | loc l =>
    have hw := hw.emit (e := .ask k id) rfl
    unfold storeGet
    refine wp_bind (wp_mute ((hushed_closed env.toLEnv).localGet _ _ _) ?_ (fun _ _ q e hq => hw.quiet e hq))
    rintro ⟨r, l, out⟩ w1 q e hq
    exact wp_pure ⟨hw.quiet e hq, by simp⟩
  | target =>
    have hw := hw.emit (e := .ask k id) rfl
    unfold storeGet
    refine wp_bind (wp_mute ((hushed_closed env.toLEnv).targetGet _ _ _ _) ?_ (fun _ _ q e hq => hw.quiet e hq))
    rintro ⟨r, l, out⟩ w1 q e hq
    exact wp_pure ⟨hw.quiet e hq, by simp⟩
  | http h =>
    unfold storeGet
    refine wp_bind (wp_mono (wp_httpGet_net hid (hs h rfl id hid) (hw.ask k id _)) ?_ (fun _ _ h => h))
    rintro ⟨r, h', out⟩ w1 ⟨h1, h2, h3⟩
    refine wp_pure ⟨h1, ?_⟩
    intro h'' e id hid
    cases e
    dsimp only at h2 h3
    rw [h2, h3]
    exact hs h rfl id hid

theorem wp_chainLoop_net {env : Env} {id : Id} (hid : id.length = 32) : ∀ (subs : List (Sub Store)) (i : Nat) (t : Tgt) (out : Bytes) (w : World), HttpSubs U i subs → NetLog U l0 w →
    wp (chainLoop (storeGet env) id i t subs out) (fun a w' => NetLog U l0 w' ∧ HttpSubs U i a.2.2.1) (fun _ w' => NetLog U l0 w') w
  | [], i, t, out, w, h, hw => by
    unfold chainLoop
    exact wp_pure ⟨hw, h⟩
  | s :: subs, i, t, out, w, h, hw => by
    have hhd : ∀ ht, s.s = .http ht → ∀ id : Id, id.length = 32 → U i id (chunkUrl ht.base ht.key.isSome id) := by
      intro ht e id hid
      exact h 0 s ht rfl e id hid
    unfold chainLoop
    split
    · refine wp_bind (wp_mono (wp_chainLoop_net hid subs (i + 1) t out w h.tail hw) ?_ (fun _ _ h => h))
      rintro ⟨r, t, subs', out⟩ w1 ⟨h1, h2⟩
      exact wp_pure ⟨h1, h2.cons hhd⟩
    · refine wp_bind (wp_emit ?_)
      refine wp_bind (wp_mono (wp_storeGet_net hid hhd hw) ?_ (fun _ _ h => h))
      rintro ⟨r, t, s', out⟩ w1 ⟨h1, h2⟩
      dsimp only
      split
      · refine wp_bind (wp_emit ?_)
        refine wp_bind (wp_mono (wp_chainLoop_net hid subs (i + 1) t out _ h.tail (h1.emit rfl)) ?_ (fun _ _ h => h))
        rintro ⟨r, t, subs', out⟩ w1 ⟨h3, h4⟩
        exact wp_pure ⟨h3, h4.cons h2⟩
      · exact wp_pure ⟨h1, h.tail.cons h2⟩
      · refine wp_bind (wp_mono (wp_chainLoop_net hid subs (i + 1) t out _ h.tail h1) ?_ (fun _ _ h => h))
        rintro ⟨r, t, subs', out⟩ w1 ⟨h3, h4⟩
        exact wp_pure ⟨h3, h4.cons h2⟩

theorem chainInv_net (env : Env) (U : Nat → Id → Bytes → Prop) (l0 : List Event) :
    ChainInv env (fun c w => NetLog U l0 w ∧ HttpSubs U 0 c.subs) (NetLog U l0) where
  ended h := h.1
  quiet h e hq _ := ⟨h.1.quiet e hq, h.2⟩
  quietEnd h e hq := h.quiet e hq
  get t c id out w hid h := by
    unfold chainGet
    refine wp_bind (wp_emit (wp_bind (wp_mono (wp_chainLoop_net hid c.subs 0 t out _ h.2 (h.1.emit rfl)) ?_ (fun _ _ h => h))))
    rintro ⟨r, t, subs', out⟩ w1 ⟨h1, h2⟩
    exact wp_bind (wp_emit (wp_pure ⟨h1.emit rfl, h2⟩))

end

/-- What an HTTP store is made from. -/
def MadeHttp (getenv : Bytes → Option Bytes) (w0 : World) (tpath arg : Bytes) : Store → Prop
  | .http h => HttpArg tpath arg ∧ ∃ frag, BaseOf arg h.base frag ∧ ParamsKey (KeyOf getenv w0) (frag.getD []) h.key
  | _ => True

theorem keyOf_same {getenv : Bytes → Option Bytes} {w w' : World} (h : SameFiles w w') {spec k : Bytes} (hk : KeyOf getenv w' spec k) : KeyOf getenv w spec k := by
  obtain ⟨h1, h2, h3⟩ := h
  obtain ⟨s, hs, r⟩ := hk
  refine ⟨s, ?_, r⟩
  cases hs with
  | key s => exact .key _
  | env v s e => exact .env v s e
  | file path ino t s e1 e2 e3 e4 => rw [h1] at e3; rw [h2] at e2; rw [h3] at e1; exact .file path ino t s e1 e2 e3 e4

theorem makes_http (env : Env) (tpath : Bytes) (w0 : World) : Makes env tpath (MadeHttp env.getenv w0 tpath) w0 := by
  intro n p t arg w hw
  unfold makeStore
  split
  · refine wp_bind (wp_true _ (fun a _ => ?_))
    rcases a with ⟨_ | _, t⟩
    · exact wp_pure (by simp)
    · refine wp_pure ?_
      intro s t' e; cases e; trivial
  · next hne =>
    split
    · next hs =>
      refine wp_bind (wp_mono wp_httpNew ?_ (fun _ _ _ => trivial))
      rintro a w1 ⟨_, ha⟩
      cases a with
      | none => exact wp_pure (by simp)
      | some h =>
        refine wp_pure ?_
        intro s t' e
        cases e
        obtain ⟨_, _, frag, hb, hk⟩ := ha h rfl
        refine ⟨⟨?_, ?_⟩, frag, hb, ?_⟩
        · simpa [streq] using hne
        · rw [startswith_iff] at hs; exact ⟨_, hs.symm⟩
        · exact ParamsKey.imp (fun s k hh => keyOf_same hw ((specKey_iff _ _ _ _).mp hh)) hk
    · refine wp_bind (wp_true _ (fun a _ => ?_))
      cases a with
      | none => exact wp_pure (by simp)
      | some l =>
        refine wp_pure ?_
        intro s t' e; cases e; trivial

theorem built_httpSubs {getenv : Bytes → Option Bytes} {w0 : World} {tpath : Bytes} {stores : List Bytes} {subs : List (Sub Store)}
    (h : Built (MadeHttp getenv w0 tpath) stores subs) : HttpSubs (StoreUrl getenv w0 tpath stores) 0 subs := by
  intro k sub ht h1 h2 id hid
  have hk : k < stores.length := by rw [← h.length]; exact (List.getElem?_eq_some_iff.1 h1).1
  have h3 := (h.each k sub stores[k] h1 (List.getElem?_eq_getElem hk)).2
  rw [h2] at h3
  obtain ⟨g1, frag, g2, g3⟩ := h3
  exact ⟨_, ht.base, frag, ht.key, by rw [Nat.zero_add]; exact List.getElem?_eq_getElem hk, g1, g2, g3, hid, rfl⟩

theorem wp_appMain_net (env : Env) (posix : Bool) (argv0 : Bytes) (args : List Bytes) (w : World) :
    wp (appMain env posix argv0 args) (fun _ w' => NetLog (StoreUrl env.getenv w (targetArg argv0 args) (storeArgs posix argv0 args)) w.log w')
      (fun _ w' => NetLog (StoreUrl env.getenv w (targetArg argv0 args) (storeArgs posix argv0 args)) w.log w') w := by
  refine wp_appMain_inv (I := fun c w' => NetLog (StoreUrl env.getenv w (targetArg argv0 args) (storeArgs posix argv0 args)) w.log w' ∧
      HttpSubs (StoreUrl env.getenv w (targetArg argv0 args) (storeArgs posix argv0 args)) 0 c.subs)
    (makes_http env (targetArg argv0 args) w) ?_ ?_ ?_ (fun _ h => h) (fun _ _ h => h)
  · intro w' q e hq
    exact ⟨q, e, by simpa using onSchedule_quiet OnSchedule.nil (fun x hx => quiet_isNet (hq x hx))⟩
  · intro c w' q hb e hq _
    refine ⟨chainInv_net env _ _, ?_, built_httpSubs hb⟩
    exact ⟨q, e, by simpa using onSchedule_quiet OnSchedule.nil (fun x hx => quiet_isNet (hq x hx))⟩
  · intro c w1 h
    have hfin : wp (finish c) (fun _ w' => ∃ q, w'.log = w1.log ++ q ∧ ∀ e ∈ q, isNet e = false) (fun _ w' => ∃ q, w'.log = w1.log ++ q ∧ ∀ e ∈ q, isNet e = false) w1 := by
      refine wp_finish (fun w' evs hc ht _ => ?_)
      have : ∃ q, w'.log = w1.log ++ q ∧ ∀ e ∈ q, isNet e = false := ⟨evs, hc.log, fun e he => by
        rcases ht e he with ⟨n, rfl⟩ | ⟨q, h, rfl⟩ <;> rfl⟩
      exact ⟨this, fun _ => this⟩
    refine wp_mono hfin ?_ ?_ <;>
    · rintro _ w2 ⟨q, e, hq⟩
      obtain ⟨evs, e1, h1⟩ := h.1
      exact ⟨evs ++ q, by rw [e, e1, List.append_assoc], onSchedule_quiet h1 hq⟩

end Csn.Proof
