import Verif.Proof.Store
/-
Querying csn's store chain.
-/
namespace Csn.Proof
open Csn Spec Props

/-- Only the target `tino` may have been changed; schedules are only consumed. -/
structure Away (tino : Nat) (w w' : World) : Prop where
  data : ∀ i, i ≠ tino → w'.data i = w.data i
  kind : w'.kind = w.kind
  dir : w'.dir = w.dir
  next : w'.next = w.next
  sys : w'.sys <:+ w.sys
  mem : w'.mem <:+ w.mem
  net : w'.net <:+ w.net

theorem Away.refl (tino : Nat) (w : World) : Away tino w w :=
  ⟨fun _ _ => rfl, rfl, rfl, rfl, List.suffix_refl _, List.suffix_refl _, List.suffix_refl _⟩

theorem Away.trans {tino : Nat} {a b c : World} (h : Away tino a b) (h' : Away tino b c) : Away tino a c :=
  ⟨fun i hi => (h'.data i hi).trans (h.data i hi), h'.kind.trans h.kind, h'.dir.trans h.dir, h'.next.trans h.next,
    h'.sys.trans h.sys, h'.mem.trans h.mem, h'.net.trans h.net⟩

theorem Calm.away {w w' : World} {evs : List Event} (h : Calm w w' evs) (tino : Nat) : Away tino w w' :=
  ⟨fun _ _ => by rw [h.data], h.kind, h.dir, h.next, h.sys, h.mem, h.net⟩

theorem StoreInv.away {env : Env} {tino : Nat} {w w' : World} {s : Store} (h : StoreInv env tino w s) (ha : Away tino w w') :
    StoreInv env tino w' s := by
  cases s with
  | loc l =>
    obtain ⟨h1, h2, h3⟩ := h
    exact ⟨h1, by rw [ha.data _ h1]; exact h2, h3⟩
  | http h' => exact ⟨h.1, h.2.1, h.2.2.suffix ha.net⟩
  | target => trivial

theorem LocSafe.away {tino : Nat} {w w' : World} {s : Store} (h : LocSafe tino w' s) (ha : Away tino w w') : LocSafe tino w s := by
  intro l hl
  obtain ⟨h1, h2⟩ := h l hl
  refine ⟨h1, fun hf => ?_⟩
  rcases h2 hf with h | h | h | h
  · exact Or.inl (fun hc => h (hc.suffix ha.sys))
  · exact Or.inr (Or.inl (ha.mem.subset h))
  · rw [ha.data _ h1] at h; exact Or.inr (Or.inr (Or.inl h))
  · rw [ha.kind] at h; exact Or.inr (Or.inr (Or.inr h))

/-- Invariant of the chain; `w0` is the world at the start. -/
def SubsInv (env : Env) (tino : Nat) (w0 w : World) (subs : List (Sub Store)) : Prop :=
  ∀ sub ∈ subs, (sub.active = true → StoreInv env tino w sub.s) ∧ LocSafe tino w0 sub.s

theorem SubsInv.away {env : Env} {tino : Nat} {w0 w w' : World} {subs : List (Sub Store)} (h : SubsInv env tino w0 w subs)
    (ha : Away tino w w') : SubsInv env tino w0 w' subs := fun s hs => ⟨fun hact => ((h s hs).1 hact).away ha, (h s hs).2⟩

/-- Events of a query for `id`, after its announcement. -/
def AskEv (id : Id) (e : Event) : Prop := (∃ k, e = .ask k id) ∨ (∃ k, e = .failed k) ∨ (∃ r, e = .answer id r) ∨ StoreEv e

theorem asksOf_append (a b : List Event) : asksOf (a ++ b) = asksOf a ++ asksOf b := by
  induction a with
  | nil => rfl
  | cons e a ih => cases e <;> simp [asksOf, ih]

theorem storeEv_noAsk (evs : List Event) (h : ∀ e ∈ evs, StoreEv e) : asksOf evs = [] := by
  induction evs with
  | nil => rfl
  | cons e evs ih =>
    have h1 := ih (fun x hx => h x (by simp [hx]))
    rcases h e (by simp) with ⟨u, hk⟩ | ⟨u, hk⟩ | ⟨u, hk⟩ <;> subst hk <;> exact h1

/-- Between `w` and `w'`, stores from number `i` on were asked for `id`, each at most once. -/
def Ordered (i : Nat) (id : Id) (w w' : World) : Prop :=
  ∃ (evs : List Event) (ks : List Nat), w'.log = w.log ++ evs ∧ asksOf evs = ks.map (·, id) ∧ ks.Pairwise (· < ·) ∧ ∀ k ∈ ks, i ≤ k

theorem Ordered.none {i : Nat} {id : Id} {w w' : World} (h : w'.log = w.log) : Ordered i id w w' :=
  ⟨[], [], by simp [h], rfl, List.Pairwise.nil, by simp⟩

theorem Ordered.later {i j : Nat} {id : Id} {w w' : World} (h : Ordered i id w w') (hj : j ≤ i) : Ordered j id w w' := by
  obtain ⟨evs, ks, h1, h2, h3, h4⟩ := h
  exact ⟨evs, ks, h1, h2, h3, fun k hk => Nat.le_trans hj (h4 k hk)⟩

/-- Store `i` was asked, and then maybe others. -/
theorem Ordered.ask {i : Nat} {id : Id} {w w1 w2 : World} {evs : List Event} (h : w1.log = w.log ++ [.ask i id] ++ evs) (he : ∀ e ∈ evs, StoreEv e)
    (h' : Ordered (i + 1) id w1 w2) : Ordered i id w w2 := by
  obtain ⟨e2, ks, h1, h2, h3, h4⟩ := h'
  refine ⟨[.ask i id] ++ evs ++ e2, i :: ks, by rw [h1, h]; simp, ?_, ?_, ?_⟩
  · simp [asksOf_append, storeEv_noAsk evs he, h2, asksOf]
  · rw [List.pairwise_cons]
    exact ⟨fun k hk => by have := h4 k hk; omega, h3⟩
  · intro k hk
    rcases List.mem_cons.1 hk with hk | hk
    · omega
    · have := h4 k hk; omega

/-- Failures are not questions. -/
theorem Ordered.failed {i k : Nat} {id : Id} {w w1 w2 : World} {lg : List Event} (h : Ordered i id w1 w2) (hl : w1.log = w.log ++ lg)
    (he : ∀ e ∈ lg, e = .failed k) : Ordered i id w w2 := by
  obtain ⟨evs, ks, h1, h2, h3, h4⟩ := h
  refine ⟨lg ++ evs, ks, by rw [h1, hl, List.append_assoc], ?_, h3, h4⟩
  have : asksOf lg = [] := by
    clear hl
    induction lg with
    | nil => rfl
    | cons e lg ih =>
      rw [he e (by simp)]
      exact ih (fun x hx => he x (by simp [hx]))
  rw [asksOf_append, this, h2, List.nil_append]

/-- Result of asking the chain, from store `i` on, for `id`. -/
structure ChainAsked (env : Env) (R : Prop) (tino : Nat) (w0 : World) (i : Nat) (t : Tgt) (id : Id) (out : Bytes) (w : World)
    (a : Option Nat × Tgt × List (Sub Store) × Bytes) (w' : World) : Prop where
  calm : ∃ evs, Calm w w' evs ∧ ∀ e ∈ evs, AskEv id e
  tgt : TgtSame t a.2.1
  len : a.2.2.2.length = out.length
  subs : SubsInv env tino w0 w' a.2.2.1
  data : ∀ n, a.1 = some (n + 1) → n + 1 ≤ out.length ∧ (R → env.H (a.2.2.2.take (n + 1)) = id)
  ans : a.1 ≠ none
  order : Ordered i id w w'

/-- How a query can stop the process. -/
def ChainStop (i : Nat) (id : Id) (w : World) (s : Stop) (w' : World) : Prop :=
  ((s = .killed ∨ s = .abort) ∧ Ordered i id w w') ∧ ∃ evs, Calm w w' evs ∧ ∀ e ∈ evs, AskEv id e

theorem Asked.askEv {id : Id} {w w' : World} {i : Nat} (h : ∃ evs, Calm { w with log := w.log ++ [.ask i id] } w' evs ∧ ∀ e ∈ evs, StoreEv e) :
    ∃ evs, Calm w w' evs ∧ ∀ e ∈ evs, AskEv id e := by
  obtain ⟨evs, h1, h2⟩ := h
  refine ⟨_, (Calm.emit w (.ask i id)).trans h1, ?_⟩
  intro e he
  simp only [List.cons_append, List.nil_append, List.mem_cons] at he
  rcases he with he | he
  · exact Or.inl ⟨i, he⟩
  · exact Or.inr (Or.inr (Or.inr (h2 e he)))

/-- The answer of a query is logged. -/
theorem Calm.answered {id : Id} {r : Option Nat} {a b : World} {q : Event} (h : ∃ evs, Calm a b (q :: evs) ∧ ∀ e ∈ evs, AskEv id e) :
    ∃ evs, Calm a { b with log := b.log ++ [.answer id r] } (q :: evs) ∧ ∀ e ∈ evs, AskEv id e := by
  obtain ⟨evs, h1, h2⟩ := h
  refine ⟨evs ++ [.answer id r], by simpa using h1.trans (Calm.emit b (.answer id r)), fun e he => ?_⟩
  rcases List.mem_append.1 he with he | he
  · exact h2 e he
  · simp only [List.mem_singleton] at he
    exact Or.inr (Or.inr (Or.inl ⟨r, he⟩))

theorem calm_chain {id : Id} {a b c : World} (h : ∃ evs, Calm a b evs ∧ ∀ e ∈ evs, AskEv id e)
    (h' : ∃ evs, Calm b c evs ∧ ∀ e ∈ evs, AskEv id e) : ∃ evs, Calm a c evs ∧ ∀ e ∈ evs, AskEv id e := by
  obtain ⟨x, x1, x2⟩ := h
  obtain ⟨y, y1, y2⟩ := h'
  refine ⟨_, x1.trans y1, fun e he => ?_⟩
  rcases List.mem_append.1 he with he | he
  · exact x2 e he
  · exact y2 e he

theorem wp_chainLoop_inv {env : Env} (hlib : env.lib.Conforms) (hz : Sane env) {R : Prop} {T : Nat → Prop} {id : Id} (hid : id.length = 32)
    {done : List Seg} {tino : Nat} {w0 : World} : ∀ (subs : List (Sub Store)) (i : Nat) (t : Tgt) (out : Bytes) (w : World), t.ino = tino →
    Away tino w0 w → SubsInv env tino w0 w subs → TgtInv env.H env.bufMax R T (w.data tino) done t →
    wp (chainLoop (storeGet env) id i t subs out) (ChainAsked env R tino w0 i t id out w) (ChainStop i id w) w
  | [], i, t, out, w, hti, _, hsub, ht => by
    unfold chainLoop
    exact wp_pure ⟨⟨[], Calm.refl w, by simp⟩, TgtSame.refl _, rfl, hsub, by simp, by simp, Ordered.none rfl⟩
  | sub :: subs, i, t, out, w, hti, hw0, hsub, ht => by
    have hsub1 : SubsInv env tino w0 w subs := fun s hs => hsub s (by simp [hs])
    have hsafe := (hsub sub (by simp)).2
    unfold chainLoop
    cases hact : sub.active with
    | false =>
      simp only [Bool.not_false, if_true]
      refine wp_bind (wp_mono (wp_chainLoop_inv hlib hz hid subs (i + 1) t out w hti hw0 hsub1 ht) (fun a w' h => ?_) (fun s w' h => ⟨⟨h.1.1, h.1.2.later (by omega)⟩, h.2⟩))
      refine wp_pure ⟨h.calm, h.tgt, h.len, ?_, h.data, h.ans, h.order.later (by omega)⟩
      intro s hs
      simp only [List.mem_cons] at hs
      rcases hs with hs | hs
      · rw [hs]; exact ⟨fun ha => (by rw [hact] at ha; cases ha), hsafe⟩
      · exact h.subs s hs
    | true =>
      simp only [Bool.not_true, Bool.false_eq_true, if_false]
      refine wp_bind (wp_emit ?_)
      have hce := Calm.emit w (.ask i id)
      have hst : StoreInv env t.ino { w with log := w.log ++ [.ask i id] } sub.s := by
        rw [hti]; exact ((hsub sub (by simp)).1 hact).away (hce.away _)
      refine wp_bind (wp_mono (wp_storeGet hlib hz hid hst (out := out) (R := R) (T := T) (done := done) (by rw [hti]; exact ht)) ?_ ?_)
      · intro a w1 h
        obtain ⟨r, t1, s1, out1⟩ := a
        rw [hti] at h
        have hc1 := Asked.askEv h.calm
        have hti1 : t1.ino = tino := h.tgt.ino.trans hti
        have hd1 : w1.data tino = w.data tino := by obtain ⟨evs, c, _⟩ := hc1; rw [c.data]
        have ht1 : TgtInv env.H env.bufMax R T (w1.data tino) done t1 := by rw [hd1]; exact ht.same h.tgt
        have haw : Away tino w w1 := by obtain ⟨evs, c, _⟩ := hc1; exact c.away _
        have hs1f : LocSafe tino w0 s1 := h.free.away (hw0.trans (hce.away _))
        have hl1 := h.len
        simp only at hl1
        have hord : ∀ {w2 : World}, Ordered (i + 1) id w1 w2 → Ordered i id w w2 := by
          obtain ⟨evs, c, ce⟩ := h.calm
          exact fun g => Ordered.ask (by rw [c.log]) ce g
        have rest : ∀ (w1' : World) (lg : List Event), Calm w1 w1' lg → (∀ e ∈ lg, e = .failed i) → ∀ (sub' : Sub Store), (sub'.active = true → StoreInv env tino w1 sub'.s) → LocSafe tino w0 sub'.s →
            wp (chainLoop (storeGet env) id (i + 1) t1 subs out1 >>= fun x => match x with
              | (r, t, subs, out) => (pure (r, t, sub' :: subs, out) : M (Option Nat × Tgt × List (Sub Store) × Bytes)))
              (ChainAsked env R tino w0 i t id out w) (ChainStop i id w) w1' := by
          intro w1' lg hlg hfl sub' hsub' hsafe'
          have haw := haw.trans (hlg.away tino)
          have hc1 := calm_chain hc1 ⟨lg, hlg, fun e he => Or.inr (Or.inl ⟨i, hfl e he⟩)⟩
          have ht1 : TgtInv env.H env.bufMax R T (w1'.data tino) done t1 := by rw [hlg.data]; exact ht1
          have hsub' : sub'.active = true → StoreInv env tino w1' sub'.s := fun ha => (hsub' ha).away (hlg.away tino)
          have hord : ∀ {w2 : World}, Ordered (i + 1) id w1' w2 → Ordered i id w w2 := fun g => hord (g.failed hlg.log hfl)
          refine wp_bind (wp_mono (wp_chainLoop_inv hlib hz hid subs (i + 1) t1 out1 w1' hti1 (hw0.trans haw) (hsub1.away haw) ht1) ?_ ?_)
          · intro b w2 g
            obtain ⟨r2, t2, subs2, out2⟩ := b
            have gl := g.len
            have gd := g.data
            simp only at gl gd
            refine wp_pure ⟨calm_chain hc1 g.calm, h.tgt.trans g.tgt, ?_, ?_, ?_, g.ans, hord g.order⟩
            · simp only; omega
            · obtain ⟨evs, c, _⟩ := g.calm
              intro s hs
              simp only [List.mem_cons] at hs
              rcases hs with hs | hs
              · subst hs; exact ⟨fun ha => (hsub' ha).away (c.away _), hsafe'⟩
              · exact g.subs s hs
            · intro n hn
              have := gd n hn
              exact ⟨by omega, this.2⟩
          · intro s w2 g
            exact ⟨⟨g.1.1, hord g.1.2⟩, calm_chain hc1 g.2⟩
        cases r with
        | none =>
          refine wp_bind (wp_emit ?_)
          exact rest _ _ (Calm.emit w1 (.failed i)) (by simp) { sub with s := s1, active := false } (by simp) hs1f
        | some n =>
          have hs1 : StoreInv env tino w1 s1 := h.store (by simp)
          cases n with
          | zero => exact rest w1 [] (Calm.refl w1) (by simp) { sub with s := s1, active := true } (fun _ => hs1) hs1f
          | succ n =>
            refine wp_pure ⟨hc1, h.tgt, hl1, ?_, h.data, by simp, hord (Ordered.none rfl)⟩
            intro s hs
            simp only [List.mem_cons] at hs
            rcases hs with hs | hs
            · subst hs; exact ⟨fun _ => hs1, hs1f⟩
            · exact (hsub1.away haw) s hs
      · intro s w1 h
        refine ⟨⟨h.1.imp_right (·.1), ?_⟩, Asked.askEv h.2⟩
        obtain ⟨evs, c, ce⟩ := h.2
        exact Ordered.ask (by rw [c.log]) ce (Ordered.none rfl)

end Csn.Proof
