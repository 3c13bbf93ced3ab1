import Verif.Proof.RunOk
import Verif.Proof.Turns
/-
Runs with the target as first store.
-/
namespace Csn.Proof
open Csn Spec Props

/-- Events from a store on, the log of a query only growing. -/
theorem wp_chainLoop_log (env : Env) (id : Id) (subs : List (Sub Store)) (i : Nat) (t : Tgt) (out : Bytes) (w : World) :
    wp (chainLoop (storeGet env) id i t subs out) (fun _ w' => ∃ l, w'.log = w.log ++ l ∧ ∀ k, .failed k ∈ l → i ≤ k)
      (fun _ w' => ∃ l, w'.log = w.log ++ l ∧ ∀ k, .failed k ∈ l → i ≤ k) w := by
  refine wp_mono (wp_chainLoop_turn (fun t s id out => (noAsk_closed env.toLEnv).storeGet noAsk_netOps env rfl t s id out) id subs i t out w) ?_ ?_
  · rintro a w' ⟨l, h1, h2, _⟩
    exact ⟨l, h1, fun k hk => (h2.later k hk).1⟩
  · rintro a w' ⟨l, h1, h2⟩
    exact ⟨l, h1, fun k hk => (h2.later k hk).1⟩

/-- Store `i` did not fail in between. -/
def Unfailed (i : Nat) (w w' : World) : Prop := ∃ l, w'.log = w.log ++ l ∧ .failed i ∉ l

/-- The target, as first store, answers for everything that is on it, or is taken out of use. -/
theorem wp_first {env : Env} (hlib : env.lib.Conforms) {R : Prop} {N : Nat} {id : Id} {done : List Seg} {tino : Nat} {sub : Sub Store} {rest : List (Sub Store)}
    {i : Nat} {t : Tgt} {out : Bytes} {w : World} (hti : t.ino = tino) (hs : sub.s = .target) (ha : sub.active = true)
    (ht : TgtInv env.H env.bufMax R (fun n => n = N) (w.data tino) done t) (hout : out.length = env.bufMax) (hfit : ∀ s ∈ done, s.len ≤ env.bufMax)
    (hlong : total done ≤ (w.data tino).length) :
    wp (chainLoop (storeGet env) id i t (sub :: rest) out)
      (fun a w' => ((∃ sub' rest', a.2.2.1 = sub' :: rest' ∧ sub'.s = .target ∧ sub'.active = true) ∧
          ((∃ s ∈ done, s.id = id) → (∃ n, a.1 = some (n + 1)) ∧ w'.log = w.log ++ [.ask i id]) ∧ Unfailed i w w') ∨
        (¬ Clean w.sys ∨ 2 ^ 63 ≤ total done) ∧ ∃ l, w'.log = w.log ++ [.ask i id] ++ [.failed i] ++ l)
      (fun _ w' => ((∃ s ∈ done, s.id = id) → w'.log = w.log ++ [.ask i id]) ∧ Unfailed i w w' ∨
        (¬ Clean w.sys ∨ 2 ^ 63 ≤ total done) ∧ ∃ l, w'.log = w.log ++ [.ask i id] ++ [.failed i] ++ l) w := by
  unfold chainLoop
  simp only [ha, Bool.not_true, Bool.false_eq_true, if_false]
  refine wp_bind (wp_emit ?_)
  unfold storeGet
  simp only [hs]
  refine wp_bind (wp_bind (wp_targetGet hlib ht.inv ?_ ?_ ?_ ?_ ?_))
  · intro hq
    rw [(ht.full N rfl).1] at hq; cases hq
  · intro t' _ hno
    have hnot : ¬ ∃ s ∈ done, s.id = id := by
      rintro ⟨s, h1, h2⟩
      obtain ⟨e, e1, e2⟩ := (ht.full N rfl).2.1 s h1
      exact hno e e1 (e2.trans h2)
    have un : ∀ {w' : World} (l : List Event), w'.log = w.log ++ [.ask i id] ++ l → (∀ k, .failed k ∈ l → i + 1 ≤ k) → Unfailed i w w' := by
      intro w' l hl hk
      refine ⟨.ask i id :: l, by rw [hl]; simp, ?_⟩
      simp only [List.mem_cons, reduceCtorEq, false_or]
      intro hm
      have := hk i hm
      omega
    refine wp_pure (wp_bind (wp_mono (wp_chainLoop_log _ _ _ _ _ _ _) (fun a w' ⟨l, hl, hk⟩ => ?_) (fun _ w' ⟨l, hl, hk⟩ => Or.inl ⟨fun h => absurd h hnot, un l hl hk⟩)))
    exact wp_pure (Or.inl ⟨⟨_, _, rfl, rfl, rfl⟩, fun h => absurd h hnot, un l hl hk⟩)
  · intro t' e r _ hq he _ _ _ _
    have hne := (ht.ok hq e he).1
    refine wp_pure ?_
    obtain ⟨n, hn⟩ : ∃ n, e.len = n + 1 := ⟨e.len - 1, by omega⟩
    simp only [hn]
    exact wp_pure (Or.inl ⟨⟨_, _, rfl, rfl, rfl⟩, fun _ => ⟨⟨n, rfl⟩, rfl⟩, [.ask i id], rfl, by simp⟩)
  · intro t' e r k _ hq he _ _ _ hbad
    have hwhy : ¬ Clean w.sys ∨ 2 ^ 63 ≤ total done := by
      obtain ⟨_, h1, ⟨s, h2, _, h3⟩, _⟩ := ht.ok hq e he
      have := hfit s h2
      rw [hti] at hbad
      rcases hbad with g | g | g | g
      · exact Or.inl g
      · omega
      · simp only at g; omega
      · exact Or.inr (by omega)
    refine wp_pure (wp_bind (wp_emit (wp_bind (wp_mono (wp_chainLoop_log env id rest _ _ _ _) ?_ ?_))))
    · intro a w' ⟨l, hl, _⟩
      exact wp_pure (Or.inr ⟨hwhy, l, hl⟩)
    · intro _ w' ⟨l, hl, _⟩
      exact Or.inr ⟨hwhy, l, hl⟩
  · exact Or.inl ⟨fun _ => rfl, [.ask i id], rfl, by simp⟩

/-- No store but the first is asked again. -/
structure Asks (H : Bytes → Id) (tino : Nat) (w0 : World) (segs : List Seg) (evs : List Event) : Prop where
  first : ∀ a k id b, evs = a ++ .ask (k + 1) id :: b → FirstUse H tino w0 segs a id
  once : ((asksOf evs).filter (fun p => p.1 ≠ 0)).Nodup
  alive : .failed 0 ∉ evs

theorem not_ask_mem {evs : List Event} (h : asksOf evs = []) : ∀ k id, Event.ask k id ∉ evs := by
  intro k id hm
  induction evs with
  | nil => simp at hm
  | cons e evs ih =>
    rcases List.mem_cons.1 hm with hm | hm
    · subst hm; simp [asksOf] at h
    · refine ih ?_ hm
      cases e <;> simp_all [asksOf]

theorem mem_asksOf {evs : List Event} {k : Nat} {id : Id} : (k, id) ∈ asksOf evs ↔ Event.ask k id ∈ evs := by
  induction evs with
  | nil => simp [asksOf]
  | cons e evs ih => cases e <;> simp_all [asksOf]

theorem split_append {α : Type} {x y a b : List α} {c : α} (h : x ++ y = a ++ c :: b) : (∃ b', x = a ++ c :: b') ∨ ∃ a', y = a' ++ c :: b ∧ a = x ++ a' := by
  rcases List.append_eq_append_iff.1 h with ⟨a', h1, h2⟩ | ⟨a', h1, h2⟩
  · exact Or.inr ⟨a', h2, h1⟩
  · cases a' with
    | nil => exact Or.inr ⟨[], by simpa using h2.symm, by simpa using h1.symm⟩
    | cons z a' =>
      simp only [List.cons_append, List.cons.injEq] at h2
      exact Or.inl ⟨a', by rw [h1, h2.1]⟩

/-- Events without questions change nothing. -/
theorem Asks.quiet {H : Bytes → Id} {tino : Nat} {w0 : World} {segs : List Seg} {evs evs' : List Event} (h : Asks H tino w0 segs evs)
    (h' : ∀ k id, (k + 1, id) ∉ asksOf evs') (hf : .failed 0 ∉ evs') : Asks H tino w0 segs (evs ++ evs') := by
  constructor
  · intro a k id b e
    rcases split_append e with ⟨b', e⟩ | ⟨a', e, _⟩
    · exact h.first a k id b' e
    · exact absurd (mem_asksOf.2 (by rw [e]; simp)) (h' k id)
  · rw [asksOf_append, List.filter_append]
    have : (asksOf evs').filter (fun p => p.1 ≠ 0) = [] := by
      rw [List.filter_eq_nil_iff]
      rintro ⟨k, id⟩ hm
      cases k with
      | zero => simp
      | succ k => exact absurd hm (h' k id)
    rw [this, List.append_nil]
    exact h.once
  · rw [List.mem_append, not_or]
    exact ⟨h.alive, hf⟩

/-- Log of a run up to now, `done` having been asked for. -/
def LogOk (H : Bytes → Id) (tino : Nat) (w0 : World) (segs done : List Seg) (w : World) : Prop :=
  ∃ evs, w.log = w0.log ++ evs ∧ Asks H tino w0 segs evs ∧ ∀ k id, (k + 1, id) ∈ asksOf evs → ∃ s ∈ done, s.id = id

theorem LogOk.mono {H : Bytes → Id} {tino : Nat} {w0 : World} {segs done done' : List Seg} {w : World} (h : LogOk H tino w0 segs done w)
    (hd : ∀ s ∈ done, s ∈ done') : LogOk H tino w0 segs done' w := by
  obtain ⟨evs, h1, h2, h3⟩ := h
  exact ⟨evs, h1, h2, fun k id hk => by obtain ⟨s, a, b⟩ := h3 k id hk; exact ⟨s, hd s a, b⟩⟩

theorem LogOk.quiet {H : Bytes → Id} {tino : Nat} {w0 : World} {segs done : List Seg} {w w' : World} (h : LogOk H tino w0 segs done w) {evs' : List Event}
    (hl : w'.log = w.log ++ evs') (h' : ∀ k id, (k + 1, id) ∉ asksOf evs') (hf : .failed 0 ∉ evs') : LogOk H tino w0 segs done w' := by
  obtain ⟨evs, h1, h2, h3⟩ := h
  refine ⟨evs ++ evs', by rw [hl, h1, List.append_assoc], h2.quiet h' hf, fun k id hk => ?_⟩
  rw [asksOf_append, List.mem_append] at hk
  rcases hk with hk | hk
  · exact h3 k id hk
  · exact absurd hk (h' k id)

/-- The first question for a region. -/
theorem LogOk.query {H : Bytes → Id} {bufMax : Nat} {R : Prop} {tino : Nat} {w0 : World} {segs pre post rest : List Seg} {seg : Seg} {w w1 w' : World}
    (h : LogOk H tino w0 segs (pre ++ post) w) (hs : Shape H bufMax R tino w0 segs pre post (seg :: rest) 0 [] w)
    (hw : w1.log = w.log ++ [.query seg.id]) (ho : Ordered 0 seg.id w1 w') (hnw : ∃ evs, Calm w1 w' evs ∧ ∀ e ∈ evs, AskEv seg.id e)
    (hold : (∃ s ∈ pre ++ post, s.id = seg.id) → w'.log = w1.log ++ [.ask 0 seg.id]) (hun : Unfailed 0 w1 w') :
    LogOk H tino w0 segs (pre ++ post ++ [seg]) w' := by
  by_cases hd : ∃ s ∈ pre ++ post, s.id = seg.id
  · refine (h.mono (done' := pre ++ post ++ [seg]) (fun s hs => List.mem_append_left _ hs)).quiet (evs' := [.query seg.id, .ask 0 seg.id]) ?_ ?_ (by simp)
    · rw [hold hd, hw]; simp
    · intro k id; simp [asksOf]
  · obtain ⟨evs, h1, h2, h3⟩ := h
    obtain ⟨es, ks, o1, o2, o3, o4⟩ := ho
    obtain ⟨es', c1, c2⟩ := hnw
    have e' : es' = es := by
      have := c1.log
      rw [o1] at this
      exact (List.append_cancel_left this).symm
    subst e'
    have hlog : w'.log = w0.log ++ (evs ++ (.query seg.id :: es')) := by rw [o1, hw, h1]; simp
    refine ⟨_, hlog, ⟨?_, ?_, ?_⟩, ?_⟩
    · intro a k id b e
      rcases split_append e with ⟨b', e⟩ | ⟨a', e, e2⟩
      · exact h2.first a k id b' e
      · have hin : (k + 1, id) ∈ asksOf (.query seg.id :: es') := mem_asksOf.2 (by rw [e]; simp)
        simp only [asksOf] at hin
        rw [o2, List.mem_map] at hin
        obtain ⟨j, _, hj⟩ := hin
        simp only [Prod.mk.injEq] at hj
        refine ⟨pre, post, seg, rest, hs.split, hj.2, ?_, fun s hs' => (hs.skip s hs').1, ?_⟩
        · intro s hs' e'; exact hd ⟨s, hs', e'.trans hj.2.symm⟩
        · obtain ⟨l, l1, _, l3, _⟩ := hs.log
          have el : l = evs := by rw [h1] at l1; exact (List.append_cancel_left l1).symm
          subst el
          have hne : writesOf a' = [] := by
            cases a' with
            | nil => rfl
            | cons z a' =>
              simp only [List.cons_append, List.cons.injEq] at e
              rw [← e.1]
              exact (askEv_none a' (fun x hx => c2 x (by rw [e.2]; simp [hx]))).1
          rw [e2, writesOf_append, hne, List.append_nil]
          simpa using l3
    · rw [asksOf_append, List.filter_append, List.nodup_append]
      refine ⟨h2.once, ?_, ?_⟩
      · simp only [asksOf]
        rw [o2]
        refine List.Nodup.sublist List.filter_sublist ?_
        show List.Pairwise _ _
        rw [List.pairwise_map]
        refine o3.imp (fun h e => ?_)
        simp only [Prod.mk.injEq] at e
        omega
      · rintro ⟨k, id⟩ hx ⟨k', id'⟩ hy e
        simp only [Prod.mk.injEq] at e
        simp only [List.mem_filter, ne_eq, decide_not, Bool.not_eq_eq_eq_not, Bool.not_true, decide_eq_false_iff_not] at hx hy
        simp only [asksOf] at hy
        rw [o2, List.mem_map] at hy
        obtain ⟨⟨j, _, hj⟩, _⟩ := hy
        simp only [Prod.mk.injEq] at hj
        obtain ⟨m, hm⟩ : ∃ m, k = m + 1 := ⟨k - 1, by omega⟩
        rw [hm] at hx
        obtain ⟨s, s1, s2⟩ := h3 m id hx.1
        exact hd ⟨s, s1, s2.trans (e.2.trans hj.2.symm)⟩
    · obtain ⟨l, l1, l2⟩ := hun
      have : l = es' := by rw [o1] at l1; exact (List.append_cancel_left l1).symm
      subst this
      simp only [List.mem_append, List.mem_cons, reduceCtorEq, false_or, not_or]
      exact ⟨h2.alive, l2⟩
    · intro k id hk
      rw [asksOf_append, List.mem_append] at hk
      rcases hk with hk | hk
      · obtain ⟨s, a, b⟩ := h3 k id hk
        exact ⟨s, List.mem_append_left _ a, b⟩
      · simp only [asksOf] at hk
        rw [o2, List.mem_map] at hk
        obtain ⟨j, _, hj⟩ := hk
        simp only [Prod.mk.injEq] at hj
        exact ⟨seg, by simp, hj.2⟩

/-- The target is the first store and in use. -/
def TargetFirst (subs : List (Sub Store)) : Prop := ∃ sub rest, subs = sub :: rest ∧ sub.s = .target ∧ sub.active = true

/-- The target has been taken out of use; until then no other store was asked again. -/
def Dead (H : Bytes → Id) (tino : Nat) (w0 : World) (segs : List Seg) (w : World) : Prop :=
  (¬ Clean w0.sys ∨ 2 ^ 63 ≤ total segs) ∧ ∃ evs l, w.log = w0.log ++ (evs ++ .failed 0 :: l) ∧ Asks H tino w0 segs evs

theorem Dead.later {H : Bytes → Id} {tino : Nat} {w0 : World} {segs : List Seg} {w w' : World} {evs : List Event} (h : Dead H tino w0 segs w)
    (hl : w'.log = w.log ++ evs) : Dead H tino w0 segs w' := by
  obtain ⟨h0, e, l, h1, h2⟩ := h
  exact ⟨h0, e, l ++ evs, by rw [hl, h1]; simp, h2⟩

/-- Analysis of runs with the target as first store. -/
def keepRun (env : Env) (tino : Nat) (w0 : World) (segs : List Seg) : Cfg where
  env := env
  tino := tino
  w0 := w0
  segs := segs
  R := Regular segs
  T := fun n => n = segs.length
  CI := fun done w subs => SubsInv env tino w0 w subs ∧ (TargetFirst subs ∧ LogOk env.H tino w0 segs done w ∨ Dead env.H tino w0 segs w)
  CJ := fun done seg w subs => SubsInv env tino w0 w subs ∧ (TargetFirst subs ∧ LogOk env.H tino w0 segs (done ++ [seg]) w ∨ Dead env.H tino w0 segs w)
  L := fun w => (∃ evs, w.log = w0.log ++ evs ∧ Asks env.H tino w0 segs evs) ∨ Dead env.H tino w0 segs w
  Bad := fun _ => True
  SOk := fun s => s = .killed ∨ s = .abort

theorem asksOf_map (ino : Nat) (l : List (Nat × Bytes)) : asksOf (l.map (fun e => Event.write ino e.1 e.2)) = [] := by
  induction l with
  | nil => rfl
  | cons e l ih => simp [asksOf, ih]

theorem tellEv_asks (evs : List Event) (h : ∀ e ∈ evs, TellEv e) : asksOf evs = [] := by
  induction evs with
  | nil => rfl
  | cons e evs ih =>
    have h1 := ih (fun x hx => h x (by simp [hx]))
    rcases h e (by simp) with ⟨n, hk⟩ | ⟨q, l, hk⟩ <;> subst hk <;> exact h1

theorem keepRun_ok {env : Env} {tino : Nat} {w0 : World} {segs : List Seg} (hlib : env.lib.Conforms) (hz : Sane env) (hs : SegsOk segs) :
    (keepRun env tino w0 segs).Ok := by
  have kept : ∀ {done w subs}, (TargetFirst subs ∧ LogOk env.H tino w0 segs done w ∨ Dead env.H tino w0 segs w) →
      (∃ evs, w.log = w0.log ++ evs ∧ Asks env.H tino w0 segs evs) ∨ Dead env.H tino w0 segs w := by
    rintro done w subs (⟨_, evs, h1, h2, _⟩ | h)
    · exact Or.inl ⟨evs, h1, h2⟩
    · exact Or.inr h
  refine ⟨hlib, hs, fun h => h, fun n hn => by simp only [keepRun] at hn ⊢; omega, ?_, ?_, ?_, ?_, ?_, ?_, ?_, ?_, ?_⟩
  · intro done w w' subs h hc
    refine ⟨SubsInv.away h.1 (hc.away _), ?_⟩
    rcases h.2 with ⟨h1, h2⟩ | h2
    · exact Or.inl ⟨h1, h2.quiet hc.log (by simp [asksOf]) (by simp)⟩
    · exact Or.inr (h2.later hc.log)
  · intro done seg w subs h
    refine ⟨h.1, ?_⟩
    rcases h.2 with ⟨h1, h2⟩ | h2
    · exact Or.inl ⟨h1, h2.mono (fun s hs => List.mem_append_left _ hs)⟩
    · exact Or.inr h2
  · intro done seg w subs d evs r mm h _ _ hr hm
    refine ⟨SubsInv.away h.1 (Away.wrote hr hm), ?_⟩
    rcases h.2 with ⟨h1, h2⟩ | h2
    · exact Or.inl ⟨h1, h2.quiet (evs' := evs.map (fun e => Event.write tino e.1 e.2)) rfl (by simp [asksOf_map]) (by simp)⟩
    · exact Or.inr (h2.later (evs := evs.map (fun e => Event.write tino e.1 e.2)) rfl)
  · intro done seg w subs h _
    refine ⟨h.1, ?_⟩
    rcases h.2 with ⟨h1, h2⟩ | h2
    · exact Or.inl ⟨h1, h2.mono (fun s hs => List.mem_append_left _ hs)⟩
    · exact Or.inr h2
  · intro done w subs h; exact kept h.2
  · intro done seg w subs h; exact kept h.2
  · intro w w' evs h hl
    rcases h with ⟨l, h1, h2⟩ | h
    · exact Or.inl ⟨_, by rw [hl, h1, List.append_assoc], h2.quiet (by simp [asksOf_map]) (by simp)⟩
    · exact Or.inr (h.later hl)
  · intro w w' evs h ht hl
    rcases h with ⟨l, h1, h2⟩ | h
    · refine Or.inl ⟨_, by rw [hl, h1, List.append_assoc], h2.quiet (by rw [tellEv_asks evs ht]; simp) (fun hm => ?_)⟩
      rcases ht _ hm with ⟨n, hk⟩ | ⟨q, l, hk⟩ <;> cases hk
    · exact Or.inr (h.later hl)
  · intro pre post seg rest c t out w hsh _ hci ht hti hout
    have hid := (hs _ _ _ hsh.split).2.2
    have ha := hsh.away
    obtain ⟨hci1, hci2⟩ := hci
    unfold chainGet
    refine wp_bind (wp_emit ?_)
    have hce := Calm.emit w (.query seg.id)
    have htot : total (pre ++ post) ≤ total segs := by
      have : total segs = total (pre ++ post) + total (seg :: rest) := by
        have := hsh.split
        simp only [keepRun] at this
        rw [← total_append, ← this]
      omega
    have hlong := hsh.long
    simp only [List.length_nil, Nat.add_zero] at hlong
    have w1 := wp_chainLoop_inv (R := Regular segs) (T := fun n => n = segs.length) (done := pre ++ post) (w0 := w0) hlib hz hid c.subs 0 t out _ hti (ha.trans (hce.away _)) (SubsInv.away hci1 (hce.away _)) ht
    rcases hci2 with ⟨⟨sub, subs, hsubs, hs1, hs2⟩, hlog⟩ | hdead
    · have w3 := wp_first (R := Regular segs) (i := 0) (rest := subs) (id := seg.id) (w := { w with log := w.log ++ [.query seg.id] }) hlib hti hs1 hs2 ht hout
        (fun s hs => by
          rcases List.mem_append.1 hs with h | h
          · exact (hsh.skip s h).2
          · exact hsh.fits s h) hlong
      rw [← hsubs] at w3
      have dead : ∀ {w' : World}, ((¬ Clean w.sys ∨ 2 ^ 63 ≤ total (pre ++ post)) ∧
          ∃ l, w'.log = (w.log ++ [.query seg.id]) ++ [.ask 0 seg.id] ++ [.failed 0] ++ l) → Dead env.H tino w0 segs w' := by
        rintro w' ⟨h0, l, hl⟩
        refine ⟨?_, ?_⟩
        · rcases h0 with h0 | h0
          · exact Or.inl (fun hc => h0 (hc.suffix ha.sys))
          · exact Or.inr (by omega)
        · obtain ⟨evs, e1, e2, _⟩ := hlog
          refine ⟨evs ++ [.query seg.id, .ask 0 seg.id], l, by rw [hl, e1]; simp, e2.quiet (by simp [asksOf]) (by simp)⟩
      refine wp_bind (wp_mono (wp_and w1 w3) ?_ ?_)
      · intro a w' h
        obtain ⟨r, t', subs', out'⟩ := a
        obtain ⟨h, h4⟩ := h
        obtain ⟨evs, k1, k2⟩ := h.calm
        have hlk : TargetFirst subs' ∧ LogOk env.H tino w0 segs (pre ++ post ++ [seg]) w' ∨ Dead env.H tino w0 segs w' := by
          rcases h4 with ⟨h3, h4, h5⟩ | h4
          · exact Or.inl ⟨h3, hlog.query (bufMax := env.bufMax) (R := Regular segs) hsh rfl h.order h.calm (fun hd => (h4 hd).2) h5⟩
          · exact Or.inr (dead h4)
        have hlk' : TargetFirst subs' ∧ LogOk env.H tino w0 segs (pre ++ post ++ [seg]) { w' with log := w'.log ++ [.answer seg.id r] } ∨
            Dead env.H tino w0 segs { w' with log := w'.log ++ [.answer seg.id r] } := by
          rcases hlk with ⟨h3, h4⟩ | h4
          · exact Or.inl ⟨h3, h4.quiet (evs' := [.answer seg.id r]) rfl (by simp [asksOf]) (by simp)⟩
          · exact Or.inr (h4.later (evs := [.answer seg.id r]) rfl)
        exact wp_bind (wp_emit (wp_pure ⟨Calm.answered ⟨evs, hce.trans k1, k2⟩, fun _ => ⟨SubsInv.away h.subs ((Calm.emit w' (.answer seg.id r)).away tino), hlk'⟩,
          kept hlk', h.tgt, h.len, h.data, fun _ => trivial⟩))
      · intro s w' h
        obtain ⟨⟨⟨h1, ho⟩, hcalm⟩, h4⟩ := h
        have hlk : (∃ evs, w'.log = w0.log ++ evs ∧ Asks env.H tino w0 segs evs) ∨ Dead env.H tino w0 segs w' := by
          rcases h4 with ⟨h4, h5⟩ | h4
          · obtain ⟨evs, e1, e2, _⟩ := hlog.query (bufMax := env.bufMax) (R := Regular segs) hsh rfl ho hcalm h4 h5
            exact Or.inl ⟨evs, e1, e2⟩
          · exact Or.inr (dead h4)
        obtain ⟨evs, k1, k2⟩ := hcalm
        exact ⟨⟨h1, hlk⟩, evs, hce.trans k1, k2⟩
    · refine wp_bind (wp_mono w1 ?_ ?_)
      · intro a w' h
        obtain ⟨r, t', subs', out'⟩ := a
        obtain ⟨evs, k1, k2⟩ := h.calm
        have hd : Dead env.H tino w0 segs { w' with log := w'.log ++ [.answer seg.id r] } :=
          (hdead.later (hce.trans k1).log).later (evs := [.answer seg.id r]) rfl
        exact wp_bind (wp_emit (wp_pure ⟨Calm.answered ⟨evs, hce.trans k1, k2⟩, fun _ => ⟨SubsInv.away h.subs ((Calm.emit w' (.answer seg.id r)).away tino), Or.inr hd⟩,
          Or.inr hd, h.tgt, h.len, h.data, fun _ => trivial⟩))
      · intro s w' h
        obtain ⟨⟨h1, _⟩, evs, k1, k2⟩ := h
        exact ⟨⟨h1, Or.inr (hdead.later (hce.trans k1).log)⟩, evs, hce.trans k1, k2⟩

/-- Every run with the target as first store. -/
theorem run_keep {env : Env} {w : World} {ipath tpath : Bytes} {stores : List Bytes} (hsc : Scene env w ipath tpath (tpath :: stores))
    {segs : List Seg} {ti : Nat} (hd : Describes w ipath segs) (ht : w.dir tpath = some ti) :
    wp (csnMain env (ipath :: tpath :: tpath :: stores))
      (fun _ w' => (∃ evs, w'.log = w.log ++ evs ∧ Asks env.H ti w segs evs) ∨ Dead env.H ti w segs w')
      (fun _ w' => (∃ evs, w'.log = w.log ++ evs ∧ Asks env.H ti w segs evs) ∨ Dead env.H ti w segs w') w := by
  have quiet : ∀ {w'}, (∃ evs, Calm w w' evs ∧ ∀ e ∈ evs, StoreEv e) → ∃ evs, w'.log = w.log ++ evs ∧ Asks env.H ti w segs evs := by
    rintro w' ⟨evs, c1, c2⟩
    refine ⟨evs, c1.log, ?_, by rw [storeEv_noAsk evs c2]; simp, fun hm => by have := c2 _ hm; simp [StoreEv] at this⟩
    intro a k id b e
    exact absurd (by rw [e]; simp) (not_ask_mem (storeEv_noAsk evs c2) (k + 1) id)
  unfold csnMain
  refine wp_bind (wp_mono (wp_csn hsc) ?_ ?_)
  · intro r w1 h
    obtain ⟨h1, h2⟩ := h
    cases r with
    | none => exact wp_pure (Or.inl (quiet h1))
    | some s =>
      simp only at h2 ⊢
      have hb := h2.begun
      have hti : s.tgt.ino = ti := by have := hb.tgt; rw [ht] at this; cases this; rfl
      have hseg := Describes.unique hd hb.idx
      have hso := Describes.segsOk hd
      have hok : (keepRun env ti w segs).Ok := keepRun_ok hsc.lib hsc.sane hso
      obtain ⟨t0, _, happ⟩ := h2.app
      refine wp_sync (G := keepRun env ti w segs) hok hsc h2 hti hseg ⟨by have := subsInv_start hsc h2; rw [hti] at this; exact this, Or.inl ⟨?_, ?_⟩⟩
        (fun n hn => ⟨happ.qry.2 (by simp), ?_⟩) (F := True) (fun _ _ _ _ _ => trivial) ?_ ?_ ?_
      · cases hsubs : s.chain.subs with
        | nil =>
          have := happ.len
          rw [hsubs] at this; simp at this
        | cons sub rest =>
          obtain ⟨g1, arg, g2, g3⟩ := happ.each 0 sub (by rw [hsubs]; rfl)
          simp only [List.getElem?_cons_zero, Option.some.injEq] at g2
          subst g2
          refine ⟨sub, rest, rfl, ?_, g1⟩
          cases hs : sub.s with
          | target => rfl
          | http h =>
            rw [hs] at g3
            exact absurd rfl g3.1.1
          | loc l =>
            rw [hs] at g3
            obtain ⟨path, index, d, e1, _⟩ := g3
            exact absurd rfl e1.1
      · obtain ⟨evs, c1, c2⟩ := h1
        obtain ⟨evs', e1, e2⟩ := quiet ⟨evs, c1, c2⟩
        have : evs' = evs := by rw [c1.log] at e1; exact (List.append_cancel_left e1).symm
        subst this
        exact ⟨evs', e1, e2, fun k id hk => by rw [storeEv_noAsk evs' c2] at hk; simp at hk⟩
      · simp only [keepRun] at hn
        have := delivered_length_le (tableEntries (w.data s.iino) s.n) 0
        rw [← hseg] at this
        simp only [tableEntries, List.length_map, List.length_range] at this
        omega
      · intro w' pre post e hs hl _
        exact hl
      · intro w' _ he; exact he.2
      · intro st w' _ he; exact he.2
  · intro s w1 h
    exact Or.inl (quiet h.1)

end Csn.Proof
