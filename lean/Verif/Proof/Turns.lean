import Verif.Spec.Turns
import Verif.Proof.ReadOnly
/-
The log of the store chain, over whole runs.
-/
namespace Csn.Proof
open Csn Spec

/-- Events are only added to the log, and none for which `T` holds. -/
def Mute (T : Event → Prop) {α : Type} (m : M α) : Prop := ∀ w, ∃ evs, (m w).2.log = w.log ++ evs ∧ ∀ e ∈ evs, ¬ T e

section
variable {T : Event → Prop}

theorem Mute.quiet {α : Type} {m : M α} (h : ∀ w, (m w).2.log = w.log) : Mute T m :=
  fun w => ⟨[], by rw [h, List.append_nil], by simp⟩

theorem Mute.pure {α : Type} (a : α) : Mute T (Pure.pure a : M α) := Mute.quiet (fun _ => rfl)

theorem Mute.bind {α β : Type} (m : M α) (f : α → M β) (hm : Mute T m) (hf : ∀ a, Mute T (f a)) : Mute T (m >>= f) := by
  intro w
  have hb : (m >>= f) w = (match m w with
      | (.ok a, w2) => f a w2
      | (.stop s, w2) => (.stop s, w2)) := rfl
  rw [hb]
  obtain ⟨evs, h1, h2⟩ := hm w
  generalize m w = r at h1
  obtain ⟨res, w1⟩ := r
  cases res with
  | ok a =>
    obtain ⟨evs', g1, g2⟩ := hf a w1
    refine ⟨evs ++ evs', by rw [← List.append_assoc]; exact g1.trans (congrArg (· ++ evs') h1), fun e he => ?_⟩
    rcases List.mem_append.1 he with he | he
    · exact h2 e he
    · exact g2 e he
  | stop s => exact ⟨evs, h1, h2⟩

theorem Mute.sysOk : Mute T M.sysOk := Mute.quiet (fun w => by
  rw [sysOk_eq]
  cases w.sys with
  | nil => rfl
  | cons x r => cases x <;> rfl)

theorem Mute.pwriteall (hT : ∀ e, T e → TopEv e ∨ NetEv e) (i : Nat) (d : Bytes) (o : Nat) : Mute T (pwriteall i d o) := by
  intro w
  obtain ⟨res, f', new, r, h1, h2⟩ := writeLoop_results (decide (w.kind i = .blk)) o d w.sys 0 (w.data i) []
  rw [List.nil_append] at h1
  have e : (Csn.pwriteall i d o w).2.log = w.log ++ new.map (fun e => Event.write i e.1 e.2) := by
    unfold Csn.pwriteall
    simp only [h1]
    cases res <;> rfl
  refine ⟨_, e, fun e he => ?_⟩
  rw [List.mem_map] at he
  obtain ⟨x, _, rfl⟩ := he
  exact fun h => (hT _ h).elim (fun h => h) (fun h => h)

theorem mute_closed0 (hT : ∀ e, T e → TopEv e ∨ NetEv e) (env : LEnv) : Closed0 False env (@Mute T) where
  pure := Mute.pure
  stop := fun _ _ _ => Mute.quiet (fun _ => rfl)
  bind := Mute.bind
  emit := fun e _ h hn w => ⟨[e], rfl, by
    simp only [List.mem_singleton]; rintro x rfl hx
    exact (hT _ hx).elim (fun hx => h hx) hn⟩
  alloc := fun _ => Mute.quiet (fun _ => rfl)
  insert := fun _ _ _ _ => Mute.quiet (fun _ => by rw [indexInsert_shape])
  sysOk := Mute.sysOk
  openPath := fun p => by
    unfold Csn.openPath
    refine Mute.bind _ _ Mute.sysOk (fun a => ?_)
    cases a
    · exact Mute.pure _
    · exact Mute.quiet (fun _ => rfl)
  fdSize := fun i => by
    rw [fdSize_eq]
    refine Mute.bind _ _ Mute.sysOk (fun a => ?_)
    cases a
    · exact Mute.pure _
    · exact Mute.quiet (fun _ => rfl)
  preadall := fun i o n => Mute.quiet (fun w => by
    unfold Csn.preadall
    generalize readLoop (w.data i) o n [] w.sys = r
    obtain ⟨r1, r2, r3⟩ := r
    cases r1 <;> rfl)
  pwriteall := fun h => h.elim
  scanInto := fun l idx => Mute.quiet (fun w => by
    unfold Csn.scanInto
    generalize scanFd env.H env.disc env.bufsiz l.p (storeInsertScan true) (w.data l.ino) (idx, w.mem) w.sys = r
    obtain ⟨r1, ⟨r2, r2'⟩, r3⟩ := r
    cases r1 <;> rfl)
  net := fun url => Mute.quiet (fun w => by
    unfold netNext
    split <;> rfl)

/-- Everything but the chain's work adds no events of the chain. -/
theorem mute_closed (hT : ∀ e, T e → TopEv e ∨ NetEv e) (env : LEnv) : Closed False env (@Mute T) where
  toClosed0 := mute_closed0 hT env
  localGet := (mute_closed0 hT env).localGet (Mute.quiet (fun _ => rfl)) 2

theorem mute_netOps (hT : ∀ e, T e → TopEv e) : NetOps (@Mute T) := fun e h w => ⟨[e], rfl, by
  simp only [List.mem_singleton]; rintro x rfl hx
  have := hT _ hx
  cases x <;> first | exact h.elim | exact this.elim⟩

theorem wp_mute {α : Type} {m : M α} (h : Mute T m) {Q : α → World → Prop} {S : Stop → World → Prop} {w : World}
    (hq : ∀ a w' evs, w'.log = w.log ++ evs → (∀ e ∈ evs, ¬ T e) → Q a w')
    (hs : ∀ s w' evs, w'.log = w.log ++ evs → (∀ e ∈ evs, ¬ T e) → S s w') : wp m Q S w := by
  unfold wp
  obtain ⟨evs, h1, h2⟩ := h w
  split
  · next e => rw [e] at h1; exact hq _ _ evs h1 h2
  · next e => rw [e] at h1; exact hs _ _ evs h1 h2

end

/-- Events are only added to the log, and none of the store chain. -/
abbrev NoAsk {α : Type} (m : M α) : Prop := Mute ChainEv m

theorem noAsk_closed (env : LEnv) : Closed False env @NoAsk := mute_closed (fun _ h => Or.inl h.top) env

theorem noAsk_netOps : NetOps @NoAsk := mute_netOps (fun _ h => h.top)

theorem NoAsk.quiet {α : Type} {m : M α} (h : ∀ w, (m w).2.log = w.log) : NoAsk m := Mute.quiet h

theorem NoAsk.finish (env : LEnv) (c : Cb) : NoAsk (finish c) := by
  have he : ∀ e, ¬ ChainEv e → NoAsk (M.emit e) := fun e h w => ⟨[e], rfl, by simp only [List.mem_singleton]; rintro x rfl; exact h⟩
  unfold Csn.finish reportSkipped
  exact Mute.bind _ _ ((noAsk_closed env).ite (Mute.pure _) (he _ (fun h => h))) (fun _ => Mute.bind _ _ (he _ (fun h => h)) (fun _ => Mute.bind _ _ ((noAsk_closed env).freeAll _) (fun _ => Mute.pure _)))

theorem wp_noAsk {α : Type} {m : M α} (h : NoAsk m) {Q : α → World → Prop} {S : Stop → World → Prop} {w : World}
    (hq : ∀ a w' evs, w'.log = w.log ++ evs → (∀ e ∈ evs, ¬ ChainEv e) → Q a w')
    (hs : ∀ s w' evs, w'.log = w.log ++ evs → (∀ e ∈ evs, ¬ ChainEv e) → S s w') : wp m Q S w := wp_mute h hq hs

/-- Sub-store number `j` is out of use. -/
def Out {σ : Type} (subs : List (Sub σ)) (j : Nat) : Prop := ∃ sub, subs[j]? = some sub ∧ sub.active = false

/-- Events of one query, from store `i` on. -/
structure TurnLog {σ : Type} (i : Nat) (id : Id) (subs : List (Sub σ)) (l : List Event) : Prop where
  noquery : ∀ id', Event.query id' ∉ l
  noanswer : ∀ id' r, Event.answer id' r ∉ l
  later : ∀ k, .failed k ∈ l → i ≤ k ∧ k < i + subs.length
  turn : ∀ a k id' b, l = a ++ .ask k id' :: b → id' = id ∧ i ≤ k ∧ k < i + subs.length ∧ ¬ Out subs (k - i) ∧ .failed k ∉ a ∧ .ask k id ∉ a ∧
    ∀ j, i ≤ j → j < k → Out subs (j - i) ∨ .ask j id ∈ a
  fails : ∀ a k b, l = a ++ .failed k :: b → ∃ a1 a2, a = a1 ++ .ask k id :: a2 ∧ ∀ k' id', .ask k' id' ∉ a2

theorem out_cons {σ : Type} {sub : Sub σ} {subs : List (Sub σ)} {j : Nat} : Out (sub :: subs) (j + 1) ↔ Out subs j := by
  unfold Out
  rw [List.getElem?_cons_succ]

theorem out_zero {σ : Type} {sub : Sub σ} {subs : List (Sub σ)} : Out (sub :: subs) 0 ↔ sub.active = false := by
  unfold Out
  simp

theorem TurnLog.nil {σ : Type} {i : Nat} {id : Id} {subs : List (Sub σ)} : TurnLog i id subs [] :=
  ⟨by simp, by simp, by simp, by simp, by simp⟩

/-- An inactive store is passed over. -/
theorem TurnLog.over {σ : Type} {i : Nat} {id : Id} {sub : Sub σ} {subs : List (Sub σ)} {l : List Event} (h : TurnLog (i + 1) id subs l)
    (ha : sub.active = false) : TurnLog i id (sub :: subs) l := by
  refine ⟨h.noquery, h.noanswer, fun k hk => ?_, ?_, h.fails⟩
  · have := h.later k hk
    simp only [List.length_cons]
    omega
  · intro a k id' b e
    obtain ⟨h1, h2, h2', h3, h4, h4', h5⟩ := h.turn a k id' b e
    refine ⟨h1, by omega, by simp only [List.length_cons]; omega, ?_, h4, h4', fun j j1 j2 => ?_⟩
    · rw [show k - i = (k - (i + 1)) + 1 by omega, out_cons]; exact h3
    · by_cases hj : j = i
      · left
        rw [hj, Nat.sub_self, out_zero]; exact ha
      · rw [show j - i = (j - (i + 1)) + 1 by omega, out_cons]
        exact h5 j (by omega) j2

/-- An active store is asked; it may fail; then others may be asked. -/
theorem TurnLog.ask {σ : Type} {i : Nat} {id : Id} {sub : Sub σ} {subs : List (Sub σ)} {q l : List Event} (ha : sub.active = true)
    (hq : ∀ e ∈ q, ¬ ChainEv e) (f : List Event) (hf : f = [] ∨ f = [.failed i]) (h : TurnLog (i + 1) id subs l) :
    TurnLog i id (sub :: subs) (.ask i id :: (q ++ (f ++ l))) := by
  have hq1 : ∀ id', Event.query id' ∉ q := fun _ hm => hq _ hm trivial
  have hq2 : ∀ k id', Event.ask k id' ∉ q := fun _ _ hm => hq _ hm trivial
  have hq3 : ∀ k, Event.failed k ∉ q := fun _ hm => hq _ hm trivial
  have hq4 : ∀ id' r, Event.answer id' r ∉ q := fun _ _ hm => hq _ hm trivial
  have hf1 : ∀ id', Event.query id' ∉ f := by rcases hf with rfl | rfl <;> simp
  have hf4 : ∀ id' r, Event.answer id' r ∉ f := by rcases hf with rfl | rfl <;> simp
  have hf2 : ∀ k id', Event.ask k id' ∉ f := by rcases hf with rfl | rfl <;> simp
  have hf3 : ∀ k, Event.failed k ∈ f → k = i := by rcases hf with rfl | rfl <;> simp
  refine ⟨?_, ?_, ?_, ?_, ?_⟩
  · intro id'
    simp [hq1, hf1, h.noquery]
  · intro id' r
    simp [hq4, hf4, h.noanswer]
  · intro k hk
    simp only [List.mem_cons, reduceCtorEq, List.mem_append, false_or] at hk
    simp only [List.length_cons]
    rcases hk with hk | hk | hk
    · exact absurd hk (hq3 k)
    · have := hf3 k hk
      omega
    · have := h.later k hk; omega
  · intro a k id' b e
    cases a with
    | nil =>
      simp only [List.nil_append, List.cons.injEq, Event.ask.injEq] at e
      obtain ⟨⟨rfl, rfl⟩, _⟩ := e
      refine ⟨rfl, Nat.le_refl _, by simp only [List.length_cons]; omega, ?_, by simp, by simp, fun j h1 h2 => by omega⟩
      rw [Nat.sub_self, out_zero, ha]; simp
    | cons x a =>
      simp only [List.cons_append, List.cons.injEq] at e
      obtain ⟨rfl, e⟩ := e
      rw [← List.append_assoc] at e
      rcases List.append_eq_append_iff.1 e with ⟨a', e1, e2⟩ | ⟨a', e1, e2⟩
      · obtain ⟨h1, h2, h2', h3, h4, h4', h5⟩ := h.turn a' k id' b e2
        refine ⟨h1, by omega, by simp only [List.length_cons]; omega, ?_, ?_, ?_, fun j j1 j2 => ?_⟩
        · rw [show k - i = (k - (i + 1)) + 1 by omega, out_cons]; exact h3
        · rw [e1]
          simp only [List.mem_cons, reduceCtorEq, List.mem_append, false_or, not_or]
          exact ⟨⟨hq3 k, fun hk => by have := hf3 k hk; omega⟩, h4⟩
        · rw [e1]
          simp only [List.mem_cons, Event.ask.injEq, List.mem_append, not_or]
          exact ⟨by rintro ⟨e, _⟩; omega, ⟨hq2 _ _, hf2 _ _⟩, h4'⟩
        · by_cases hj : j = i
          · right; rw [hj]; simp
          · rw [show j - i = (j - (i + 1)) + 1 by omega, out_cons]
            rcases h5 j (by omega) j2 with h5 | h5
            · exact Or.inl h5
            · right; rw [e1]; simp [h5]
      · cases a' with
        | nil =>
          rw [List.append_nil] at e1
          simp only [List.nil_append] at e2
          obtain ⟨h1, h2, h2', h3, h4, h4', h5⟩ := h.turn [] k id' b e2.symm
          refine ⟨h1, by omega, by simp only [List.length_cons]; omega, ?_, ?_, ?_, fun j j1 j2 => ?_⟩
          · rw [show k - i = (k - (i + 1)) + 1 by omega, out_cons]; exact h3
          · rw [← e1]
            simp only [List.mem_cons, reduceCtorEq, List.mem_append, false_or, not_or]
            exact ⟨hq3 k, fun hk => by have := hf3 k hk; omega⟩
          · rw [← e1]
            simp only [List.mem_cons, Event.ask.injEq, List.mem_append, not_or]
            exact ⟨by rintro ⟨e, _⟩; omega, hq2 _ _, hf2 _ _⟩
          · by_cases hj : j = i
            · right; rw [hj]; simp
            · rw [show j - i = (j - (i + 1)) + 1 by omega, out_cons]
              rcases h5 j (by omega) j2 with h5 | h5
              · exact Or.inl h5
              · simp at h5
        | cons y a' =>
          simp only [List.cons_append, List.cons.injEq] at e2
          have : Event.ask k id' ∈ q ++ f := by rw [e1, e2.1]; simp
          rw [List.mem_append] at this
          exact absurd this (not_or.2 ⟨hq2 _ _, hf2 _ _⟩)
  · intro a k b e
    cases a with
    | nil => simp at e
    | cons x a =>
      simp only [List.cons_append, List.cons.injEq] at e
      obtain ⟨rfl, e⟩ := e
      rw [← List.append_assoc] at e
      rcases List.append_eq_append_iff.1 e with ⟨a', e1, e2⟩ | ⟨a', e1, e2⟩
      · obtain ⟨a1, a2, h1, h2⟩ := h.fails a' k b e2
        exact ⟨.ask i id :: ((q ++ f) ++ a1), a2, by rw [e1, h1]; simp, h2⟩
      · cases a' with
        | nil =>
          simp only [List.nil_append] at e2
          obtain ⟨a1, a2, h1, h2⟩ := h.fails [] k b e2.symm
          simp at h1
        | cons y a' =>
          simp only [List.cons_append, List.cons.injEq] at e2
          have hm : Event.failed k ∈ q ++ f := by rw [e1, e2.1]; simp
          rw [List.mem_append] at hm
          have hk := hf3 k (hm.resolve_left (hq3 k))
          subst hk
          refine ⟨[], a, by simp, fun k' id' hm => ?_⟩
          have : Event.ask k' id' ∈ q ++ f := by rw [e1]; simp [hm]
          rw [List.mem_append] at this
          exact absurd this (not_or.2 ⟨hq2 _ _, hf2 _ _⟩)

/-- What the result of a query says about the events `l` of it, from store `i` on. -/
def TurnRes {σ : Type} (i : Nat) (id : Id) (subs : List (Sub σ)) (l : List Event) (r : Option Nat) : Prop :=
  (∃ m k x y, r = some (m + 1) ∧ l = x ++ .ask k id :: y ∧ (∀ k' id', .ask k' id' ∉ y) ∧ .failed k ∉ y) ∨
  (r = some 0 ∧ ∀ j < subs.length, Out subs j ∨ .ask (i + j) id ∈ l)

theorem TurnRes.over {σ : Type} {i : Nat} {id : Id} {sub : Sub σ} {subs : List (Sub σ)} {l : List Event} {r : Option Nat} (h : TurnRes (i + 1) id subs l r)
    (ha : sub.active = false) : TurnRes i id (sub :: subs) l r := by
  rcases h with h | ⟨h1, h2⟩
  · exact Or.inl h
  · refine Or.inr ⟨h1, fun j hj => ?_⟩
    cases j with
    | zero => exact Or.inl (out_zero.2 ha)
    | succ j =>
      rw [out_cons, show i + (j + 1) = i + 1 + j by omega]
      exact h2 j (by simpa using hj)

theorem TurnRes.ask {σ : Type} {i : Nat} {id : Id} {sub : Sub σ} {subs : List (Sub σ)} {l q f : List Event} {r : Option Nat} (h : TurnRes (i + 1) id subs l r) :
    TurnRes i id (sub :: subs) (.ask i id :: (q ++ (f ++ l))) r := by
  rcases h with ⟨m, k, x, y, h1, h2, h3⟩ | ⟨h1, h2⟩
  · exact Or.inl ⟨m, k, .ask i id :: (q ++ (f ++ x)), y, h1, by rw [h2]; simp, h3⟩
  · refine Or.inr ⟨h1, fun j hj => ?_⟩
    cases j with
    | zero => exact Or.inr (by simp)
    | succ j =>
      rw [out_cons, show i + (j + 1) = i + 1 + j by omega]
      rcases h2 j (by simpa using hj) with h | h
      · exact Or.inl h
      · exact Or.inr (by simp [h])

/-- One query, whatever the stores do. -/
theorem wp_chainLoop_turn {τ σ : Type} {get : τ → σ → Id → Bytes → M (Option Nat × τ × σ × Bytes)} (hget : ∀ t s id out, NoAsk (get t s id out)) (id : Id) :
    ∀ (subs : List (Sub σ)) (i : Nat) (t : τ) (out : Bytes) (w : World),
    wp (chainLoop get id i t subs out)
      (fun a w' => ∃ l, w'.log = w.log ++ l ∧ TurnLog i id subs l ∧ TurnRes i id subs l a.1 ∧ a.2.2.1.length = subs.length ∧ ∀ j, Out a.2.2.1 j ↔ Out subs j ∨ .failed (i + j) ∈ l)
      (fun _ w' => ∃ l, w'.log = w.log ++ l ∧ TurnLog i id subs l) w
  | [], i, t, out, w => by
    unfold chainLoop
    exact wp_pure ⟨[], by simp, TurnLog.nil, Or.inr ⟨rfl, by simp⟩, rfl, fun j => by simp⟩
  | sub :: subs, i, t, out, w => by
    unfold chainLoop
    cases hact : sub.active with
    | false =>
      simp only [Bool.not_false, if_true]
      refine wp_bind (wp_mono (wp_chainLoop_turn hget id subs (i + 1) t out w) ?_ ?_)
      · rintro ⟨r, t', subs', out'⟩ w' ⟨l, h1, h2, hr, h3, h4⟩
        refine wp_pure ⟨l, h1, h2.over hact, hr.over hact, by simp only [List.length_cons]; simp only at h3; omega, fun j => ?_⟩
        cases j with
        | zero =>
          rw [out_zero, out_zero, hact]
          simp
        | succ j =>
          rw [out_cons, out_cons, show i + (j + 1) = i + 1 + j by omega]
          exact h4 j
      · rintro s w' ⟨l, h1, h2⟩
        exact ⟨l, h1, h2.over hact⟩
    | true =>
      simp only [Bool.not_true, Bool.false_eq_true, if_false]
      refine wp_bind (wp_emit (wp_bind (wp_noAsk (hget _ _ _ _) ?_ ?_)))
      · rintro ⟨r, t', s', out'⟩ w1 q e1 hq
        have low : ∀ (f l : List Event) (j : Nat), (f = [] ∨ f = [.failed i]) → TurnLog (i + 1) id subs l →
            (Event.failed (i + 1 + j) ∈ l ↔ Event.failed (i + (j + 1)) ∈ (.ask i id :: (q ++ (f ++ l)))) := by
          intro f l j hf _
          rw [show i + 1 + j = i + (j + 1) by omega]
          constructor
          · intro h; simp [h]
          · intro h
            simp only [List.mem_cons, reduceCtorEq, List.mem_append, false_or] at h
            rcases h with h | h | h
            · exact absurd trivial (hq _ h)
            · rcases hf with rfl | rfl
              · simp at h
              · simp only [List.mem_singleton, Event.failed.injEq] at h
                omega
            · exact h
        cases r with
        | none =>
          refine wp_bind (wp_emit (wp_bind (wp_mono (wp_chainLoop_turn hget id subs (i + 1) t' out' _) ?_ ?_)))
          · rintro ⟨r2, t2, subs2, out2⟩ w2 ⟨l, h1, h2, hr, h3, h4⟩
            refine wp_pure ⟨.ask i id :: (q ++ ([.failed i] ++ l)), by rw [h1]; simp [e1], TurnLog.ask hact hq _ (Or.inr rfl) h2, hr.ask,
              by simp only [List.length_cons]; simp only at h3; omega, fun j => ?_⟩
            cases j with
            | zero =>
              rw [out_zero, out_zero]
              simp
            | succ j =>
              rw [out_cons, out_cons, ← low [.failed i] l j (Or.inr rfl) h2]
              exact h4 j
          · rintro s w2 ⟨l, h1, h2⟩
            exact ⟨.ask i id :: (q ++ ([.failed i] ++ l)), by rw [h1]; simp [e1], TurnLog.ask hact hq _ (Or.inr rfl) h2⟩
        | some n =>
          cases n with
          | zero =>
            refine wp_bind (wp_mono (wp_chainLoop_turn hget id subs (i + 1) t' out' _) ?_ ?_)
            · rintro ⟨r2, t2, subs2, out2⟩ w2 ⟨l, h1, h2, hr, h3, h4⟩
              refine wp_pure ⟨.ask i id :: (q ++ ([] ++ l)), by rw [h1]; simp [e1], TurnLog.ask hact hq _ (Or.inl rfl) h2, hr.ask,
                by simp only [List.length_cons]; simp only at h3; omega, fun j => ?_⟩
              cases j with
              | zero =>
                rw [out_zero, out_zero]
                simp only [hact, List.nil_append, List.mem_cons, reduceCtorEq, List.mem_append, false_or]
                refine ⟨fun h => absurd h (by simp), fun h => ?_⟩
                rcases h with h | h
                · exact absurd trivial (hq _ h)
                · have := (h2.later _ h).1; omega
              | succ j =>
                rw [out_cons, out_cons, ← low [] l j (Or.inl rfl) h2]
                exact h4 j
            · rintro s w2 ⟨l, h1, h2⟩
              exact ⟨.ask i id :: (q ++ ([] ++ l)), by rw [h1]; simp [e1], TurnLog.ask hact hq _ (Or.inl rfl) h2⟩
          | succ n =>
            refine wp_pure ⟨.ask i id :: (q ++ ([] ++ [])), by rw [e1]; simp, TurnLog.ask hact hq _ (Or.inl rfl) TurnLog.nil,
              Or.inl ⟨n, i, [], q, rfl, by simp, fun _ _ hm => hq _ hm trivial, fun hm => hq _ hm trivial⟩, rfl, fun j => ?_⟩
            have hn : ∀ k, Event.failed k ∉ (Event.ask i id :: (q ++ ([] ++ []))) := by
              intro k
              simp only [List.append_nil, List.mem_cons, reduceCtorEq, false_or]
              exact fun h => absurd trivial (hq _ h)
            cases j with
            | zero =>
              rw [out_zero, out_zero]
              simp only [hn, or_false, hact]
            | succ j =>
              rw [out_cons, out_cons]
              simp only [hn, or_false]
      · rintro s w1 q e1 hq
        exact ⟨.ask i id :: (q ++ ([] ++ [])), by rw [e1]; simp, TurnLog.ask hact hq _ (Or.inl rfl) TurnLog.nil⟩

/-- The log of a run so far, for a chain of `n` stores. -/
structure Turns (n : Nat) (evs : List Event) : Prop where
  alive : AliveAsked evs
  turn : InTurn evs
  fails : FailedWhenAsked evs
  known : ∀ k id, .ask k id ∈ evs → k < n
  answered : Answered n evs
  paired : Paired evs

theorem Turns.nil {n : Nat} : Turns n [] := by
  refine ⟨?_, ?_, ?_, by simp, ?_, ?_⟩
  · intro a k id b e; simp at e
  · intro a k id b e; simp at e
  · intro a k b e; simp at e
  · intro a k id b e; simp at e
  · intro a k b e; simp at e

theorem split_mid {α : Type} {x y a b : List α} {c : α} (h : x ++ y = a ++ c :: b) : (∃ b', x = a ++ c :: b') ∨ ∃ a', y = a' ++ c :: b ∧ a = x ++ a' := by
  rcases List.append_eq_append_iff.1 h with ⟨a', h1, h2⟩ | ⟨a', h1, h2⟩
  · exact Or.inr ⟨a', h2, h1⟩
  · cases a' with
    | nil => exact Or.inr ⟨[], by simpa using h2.symm, by simpa using h1.symm⟩
    | cons z a' =>
      simp only [List.cons_append, List.cons.injEq] at h2
      exact Or.inl ⟨a', by rw [h1, h2.1]⟩

/-- All queries have been answered. -/
def Done (evs : List Event) : Prop := ∀ a id b, evs = a ++ .query id :: b → ∃ b1 r b2, b = b1 ++ .answer id r :: b2 ∧ ∀ id', .query id' ∉ b1

/-- More events, none of which starts a query. -/
theorem Paired.more {evs q : List Event} (h : Paired evs) (hq : ∀ id, .query id ∉ q) : Paired (evs ++ q) := by
  intro a id b e
  rcases split_mid e with ⟨b', e'⟩ | ⟨a', e', _⟩
  · have hb : b = b' ++ q := by
      rw [e', List.append_assoc, List.cons_append] at e
      have := List.append_cancel_left e
      simp only [List.cons.injEq, true_and] at this
      exact this.symm
    rcases h a id b' e' with ⟨b1, r, b2, h1, h2⟩ | h
    · exact Or.inl ⟨b1, r, b2 ++ q, by rw [hb, h1]; simp, h2⟩
    · exact Or.inr (fun id' hm => by rw [hb, List.mem_append] at hm; exact hm.elim (h id') (hq id'))
  · exact absurd (by rw [e']; simp) (hq id)

theorem Done.more {evs q : List Event} (h : Done evs) (hq : ∀ id, .query id ∉ q) : Done (evs ++ q) := by
  intro a id b e
  rcases split_mid e with ⟨b', e'⟩ | ⟨a', e', _⟩
  · have hb : b = b' ++ q := by
      rw [e', List.append_assoc, List.cons_append] at e
      have := List.append_cancel_left e
      simp only [List.cons.injEq, true_and] at this
      exact this.symm
    obtain ⟨b1, r, b2, h1, h2⟩ := h a id b' e'
    exact ⟨b1, r, b2 ++ q, by rw [hb, h1]; simp, h2⟩
  · exact absurd (by rw [e']; simp) (hq id)

/-- A new query. -/
theorem Done.query {evs : List Event} (h : Done evs) (id : Id) : Paired (evs ++ [.query id]) := by
  intro a id' b e
  rcases split_mid e with ⟨b', e'⟩ | ⟨a', e', _⟩
  · have hb : b = b' ++ [.query id] := by
      rw [e', List.append_assoc, List.cons_append] at e
      have := List.append_cancel_left e
      simp only [List.cons.injEq, true_and] at this
      exact this.symm
    obtain ⟨b1, r, b2, h1, h2⟩ := h a id' b' e'
    exact Or.inl ⟨b1, r, b2 ++ [.query id], by rw [hb, h1]; simp, h2⟩
  · right
    cases a' with
    | nil =>
      simp only [List.nil_append, List.cons.injEq] at e'
      rw [← e'.2]; simp
    | cons x a' => simp at e'

/-- It is answered. -/
theorem Done.answer {evs l : List Event} {id : Id} (h : Done evs) (hl : ∀ id', .query id' ∉ l) (r : Option Nat) : Done (evs ++ (.query id :: l) ++ [.answer id r]) := by
  intro a id' b e
  have hp := Paired.more (h.query id) hl
  rw [List.append_assoc, List.cons_append, List.nil_append] at hp
  rcases split_mid e with ⟨b', e'⟩ | ⟨a', e', _⟩
  · have hb : b = b' ++ [.answer id r] := by
      rw [e', List.append_assoc, List.cons_append] at e
      have := List.append_cancel_left e
      simp only [List.cons.injEq, true_and] at this
      exact this.symm
    rcases hp a id' b' e' with ⟨b1, r', b2, h1, h2⟩ | h'
    · exact ⟨b1, r', b2 ++ [.answer id r], by rw [hb, h1]; simp, h2⟩
    · -- the last query
      rcases split_mid e' with ⟨b'', e''⟩ | ⟨a'', e'', _⟩
      · rw [e'', List.append_assoc, List.cons_append] at e'
        have := List.append_cancel_left e'
        simp only [List.cons.injEq, true_and] at this
        exact absurd (by rw [← this]; simp) (h' id)
      · cases a'' with
        | nil =>
          simp only [List.nil_append, List.cons.injEq, Event.query.injEq] at e''
          rw [← e''.1]
          exact ⟨b', r, [], hb, h'⟩
        | cons x a'' =>
          simp only [List.cons_append, List.cons.injEq] at e''
          exact absurd (by rw [e''.2]; simp) (hl id')
  · cases a' with
    | nil => simp at e'
    | cons x a' => simp at e'

/-- Other events change nothing. -/
theorem Turns.quiet {n : Nat} {evs q : List Event} (h : Turns n evs) (hq : ∀ e ∈ q, ¬ ChainEv e) : Turns n (evs ++ q) := by
  refine ⟨?_, ?_, ?_, ?_, ?_, Paired.more h.paired (fun id hm => hq _ hm trivial)⟩
  · intro a k id b e
    rcases split_mid e with ⟨b', e⟩ | ⟨a', e, _⟩
    · exact h.alive a k id b' e
    · exact absurd trivial (hq (.ask k id) (by rw [e]; simp))
  · intro a k id b e
    rcases split_mid e with ⟨b', e⟩ | ⟨a', e, _⟩
    · exact h.turn a k id b' e
    · exact absurd trivial (hq (.ask k id) (by rw [e]; simp))
  · intro a k b e
    rcases split_mid e with ⟨b', e⟩ | ⟨a', e, _⟩
    · exact h.fails a k b' e
    · exact absurd trivial (hq (.failed k) (by rw [e]; simp))
  · intro k id hm
    rcases List.mem_append.1 hm with hm | hm
    · exact h.known k id hm
    · exact absurd trivial (hq _ hm)
  · intro a id r b e
    rcases split_mid e with ⟨b', e⟩ | ⟨a', e, _⟩
    · exact h.answered a id r b' e
    · exact absurd trivial (hq (.answer id r) (by rw [e]; simp))

/-- The end of a query. -/
theorem Turns.answer {n : Nat} {a1 a2 : List Event} {id : Id} {r : Option Nat} (h : Turns n (a1 ++ .query id :: a2)) (h1 : ∀ id', .query id' ∉ a2) (h2 : ∀ id' r', .answer id' r' ∉ a2)
    (h3 : (∃ m k x y, r = some (m + 1) ∧ a2 = x ++ .ask k id :: y ∧ (∀ k' id', .ask k' id' ∉ y) ∧ .failed k ∉ y) ∨
     (r = some 0 ∧ ∀ j < n, .failed j ∈ a1 ∨ .ask j id ∈ a2)) : Turns n (a1 ++ .query id :: a2 ++ [.answer id r]) := by
  have none : ∀ {x : Event} {a b : List Event}, [Event.answer id r] = a ++ x :: b → a = [] ∧ x = .answer id r := by
    intro x a b e
    cases a with
    | nil => simp only [List.nil_append, List.cons.injEq] at e; exact ⟨rfl, e.1.symm⟩
    | cons y a => simp at e
  refine ⟨?_, ?_, ?_, ?_, ?_, Paired.more h.paired (by simp)⟩
  · intro a k id b e
    rcases split_mid e with ⟨b', e⟩ | ⟨a', e, _⟩
    · exact h.alive a k id b' e
    · cases (none e).2
  · intro a k id b e
    rcases split_mid e with ⟨b', e⟩ | ⟨a', e, _⟩
    · exact h.turn a k id b' e
    · cases (none e).2
  · intro a k b e
    rcases split_mid e with ⟨b', e⟩ | ⟨a', e, _⟩
    · exact h.fails a k b' e
    · cases (none e).2
  · intro k id hm
    rcases List.mem_append.1 hm with hm | hm
    · exact h.known k id hm
    · simp at hm
  · intro a id' r' b e
    rcases split_mid e with ⟨b', e⟩ | ⟨a', e, e2⟩
    · exact h.answered a id' r' b' e
    · obtain ⟨rfl, e'⟩ := none e
      cases e'
      rw [List.append_nil] at e2
      exact ⟨a1, a2, e2, h1, h2, h3⟩

/-- A query. -/
theorem Turns.query {σ : Type} {subs : List (Sub σ)} {id : Id} {evs l : List Event} (h : Turns subs.length evs) (ho : ∀ j, Out subs j ↔ .failed j ∈ evs)
    (hd : Done evs) (hl : TurnLog 0 id subs l) : Turns subs.length (evs ++ (.query id :: l)) := by
  have part : ∀ {a : List Event} {x : Event} {b : List Event}, .query id :: l = a ++ x :: b → x ≠ .query id → ∃ a', a = .query id :: a' ∧ l = a' ++ x :: b := by
    intro a x b e hx
    cases a with
    | nil =>
      simp only [List.nil_append, List.cons.injEq] at e
      exact absurd e.1.symm hx
    | cons y a =>
      simp only [List.cons_append, List.cons.injEq] at e
      exact ⟨a, by rw [e.1], e.2⟩
  refine ⟨?_, ?_, ?_, ?_, ?_, ?_⟩
  · intro a k id' b e
    rcases split_mid e with ⟨b', e⟩ | ⟨a', e, e2⟩
    · exact h.alive a k id' b' e
    · obtain ⟨a1, rfl, e3⟩ := part e (by simp)
      obtain ⟨h1, h2, h2', h3, h4, h4', h5⟩ := hl.turn a1 k id' b e3
      rw [Nat.sub_zero, ho] at h3
      rw [e2]
      simp only [List.mem_append, List.mem_cons, reduceCtorEq, false_or, not_or]
      exact ⟨h3, h4⟩
  · intro a k id' b e
    rcases split_mid e with ⟨b', e⟩ | ⟨a', e, e2⟩
    · exact h.turn a k id' b' e
    · obtain ⟨a1, rfl, e3⟩ := part e (by simp)
      obtain ⟨rfl, h2, h2', h3, h4, h4', h5⟩ := hl.turn a1 k id' b e3
      refine ⟨evs, a1, e2, fun id' hm => hl.noquery id' (by rw [e3]; simp [hm]), h4', fun j hj => ?_⟩
      have := h5 j (Nat.zero_le _) hj
      rw [Nat.sub_zero, ho] at this
      exact this
  · intro a k b e
    rcases split_mid e with ⟨b', e⟩ | ⟨a', e, e2⟩
    · exact h.fails a k b' e
    · obtain ⟨a1, rfl, e3⟩ := part e (by simp)
      obtain ⟨x, y, h1, h2⟩ := hl.fails a1 k b e3
      exact ⟨evs ++ (.query id :: x), id, y, by rw [e2, h1]; simp, h2⟩
  · intro k id' hm
    simp only [List.mem_append, List.mem_cons, reduceCtorEq, false_or] at hm
    rcases hm with hm | hm
    · exact h.known k id' hm
    · obtain ⟨a, b, e⟩ := List.append_of_mem hm
      have := (hl.turn a k id' b e).2.2.1
      omega
  · intro a id' r b e
    rcases split_mid e with ⟨b', e⟩ | ⟨a', e, e2⟩
    · exact h.answered a id' r b' e
    · obtain ⟨a1, rfl, e3⟩ := part e (by simp)
      exact absurd (by rw [e3]; simp) (hl.noanswer id' r)
  · have := Paired.more (hd.query id) hl.noquery
    rwa [List.append_assoc, List.cons_append, List.nil_append] at this

/-- State and log agree on which stores are out of use. -/
def TurnInv (n : Nat) (w0 : World) (subs : List (Sub Store)) (w : World) : Prop :=
  subs.length = n ∧ ∃ evs, w.log = w0.log ++ evs ∧ Turns n evs ∧ Done evs ∧ ∀ j, Out subs j ↔ .failed j ∈ evs

def TurnEnd (n : Nat) (w0 w : World) : Prop := ∃ evs, w.log = w0.log ++ evs ∧ Turns n evs

theorem TurnInv.ended {n : Nat} {w0 : World} {subs : List (Sub Store)} {w : World} (h : TurnInv n w0 subs w) : TurnEnd n w0 w := by
  obtain ⟨_, evs, h1, h2, _⟩ := h
  exact ⟨evs, h1, h2⟩

theorem TurnEnd.quiet {n : Nat} {w0 w w' : World} (h : TurnEnd n w0 w) {q : List Event} (hl : w'.log = w.log ++ q) (hq : ∀ e ∈ q, ¬ ChainEv e) : TurnEnd n w0 w' := by
  obtain ⟨evs, h1, h2⟩ := h
  exact ⟨evs ++ q, by rw [hl, h1, List.append_assoc], h2.quiet hq⟩

theorem TurnInv.quiet {n : Nat} {w0 : World} {subs : List (Sub Store)} {w w' : World} (h : TurnInv n w0 subs w) {q : List Event}
    (hl : w'.log = w.log ++ q) (hq : ∀ e ∈ q, ¬ ChainEv e) : TurnInv n w0 subs w' := by
  obtain ⟨h0, evs, h1, h2, hd, h3⟩ := h
  refine ⟨h0, evs ++ q, by rw [hl, h1, List.append_assoc], h2.quiet hq, hd.more (fun id hm => hq _ hm trivial), fun j => ?_⟩
  rw [h3, List.mem_append]
  exact ⟨Or.inl, fun h => h.resolve_right (fun hm => hq _ hm trivial)⟩

theorem wp_chainGet_turn {n : Nat} {w0 : World} (env : Env) (t : Tgt) (c : Chain Store) (id : Id) (out : Bytes) {w : World} (h : TurnInv n w0 c.subs w) :
    wp (chainGet (storeGet env) t c id out) (fun a w' => TurnInv n w0 a.2.2.1.subs w') (fun _ w' => TurnEnd n w0 w') w := by
  obtain ⟨h0, evs, h1, h2, hd, h3⟩ := h
  subst h0
  unfold chainGet
  refine wp_bind (wp_emit (wp_bind (wp_mono (wp_chainLoop_turn (fun t s id out => (noAsk_closed env.toLEnv).storeGet noAsk_netOps env rfl t s id out) id c.subs 0 t out _) ?_ ?_)))
  · rintro ⟨r, t', subs', out'⟩ w' ⟨l, l1, l2, lr, l3, l4⟩
    refine wp_bind (wp_emit (wp_pure ⟨l3, evs ++ (.query id :: l) ++ [.answer id r], by simp [l1, h1], (h2.query h3 hd l2).answer l2.noquery l2.noanswer ?_,
      hd.answer l2.noquery r, fun j => ?_⟩))
    · rcases lr with lr | ⟨lr1, lr2⟩
      · exact Or.inl lr
      · refine Or.inr ⟨lr1, fun j hj => ?_⟩
        have := lr2 j hj
        rw [Nat.zero_add, h3 j] at this
        exact this
    rw [l4 j, h3 j]
    simp
  · rintro s w' ⟨l, l1, l2⟩
    exact ⟨evs ++ (.query id :: l), by rw [l1]; simp [h1], h2.query h3 hd l2⟩

theorem Mute.targetWrite {T : Event → Prop} (hT : ∀ e, T e → TopEv e ∨ NetEv e) (lib : Lib) (t : Tgt) (buf : Bytes) (len off : Nat) (id : Id) : Mute T (targetWrite lib t buf len off id) := by
  have C := mute_closed hT (⟨fun _ => [], fun _ => none, 0, lib⟩ : LEnv)
  unfold Csn.targetWrite
  repeat' (first
    | exact C.pure _
    | exact C.stop _ (by simp) (by simp)
    | exact Mute.pwriteall hT _ _ _
    | exact C.targetAdd _ _ _ _ _
    | refine C.bind _ _ ?_ (fun _ => ?_)
    | split
    | dsimp only)

/-- Fetching, after the entry was not skipped. -/
local macro "turn_fetch" h:ident wr:ident : tactic => `(tactic|
  (split
   · refine wp_bind (wp_mono (wp_chainGet_turn _ _ _ _ _ $h) ?_ (fun _ _ h => h))
     rintro ⟨r, t, ch, buf⟩ w' h'
     dsimp only
     split
     · exact wp_bind (wp_pure ($wr _ _ h'))
     · exact wp_bind (wp_pure (wp_pure h'))
   · exact wp_bind (wp_pure ($wr _ _ $h))))

theorem wp_entryCb_turn {n : Nat} {w0 : World} (env : Env) (c : Cb) (e : Seg) {w : World} (h : TurnInv n w0 c.chain.subs w) :
    wp (entryCb env c e) (fun a w' => TurnInv n w0 a.2.chain.subs w') (fun _ w' => TurnEnd n w0 w') w := by
  have wr : ∀ (c : Cb) (w : World), TurnInv n w0 c.chain.subs w →
      wp (targetWrite env.lib c.tgt c.buf e.len e.off e.id >>= fun x => match x with
        | (ok, tgt) => (pure (ok, { c with tgt := tgt }) : M (Bool × Cb))) (fun a w' => TurnInv n w0 a.2.chain.subs w') (fun _ w' => TurnEnd n w0 w') w := by
    intro c w h
    refine wp_bind (wp_noAsk (Mute.targetWrite (fun _ h => Or.inl h.top) _ _ _ _ _ _) ?_ ?_)
    · rintro ⟨ok, t⟩ w' q e1 hq
      exact wp_pure (h.quiet e1 hq)
    · intro s w' q e1 hq
      exact h.ended.quiet e1 hq
  unfold entryCb
  dsimp only
  split
  · split
    · exact wp_pure h
    · refine wp_bind (wp_noAsk ((noAsk_closed env.toLEnv).targetCheck env _ _ _ _ _) ?_ ?_)
      · rintro ⟨r, t, buf⟩ w' q e1 hq
        dsimp only
        split
        · exact wp_pure (h.quiet e1 hq)
        · have h := h.quiet e1 hq
          turn_fetch h wr
      · intro s w' q e1 hq
        exact h.ended.quiet e1 hq
  · turn_fetch h wr

theorem Mute.ld64le {T : Event → Prop} (b : Bytes) (o : Nat) : Mute T (ld64le b o) := by
  unfold Csn.ld64le
  split
  · exact Mute.quiet (fun _ => rfl)
  · exact Mute.quiet (fun _ => rfl)

theorem Mute.ldBytes {T : Event → Prop} (b : Bytes) (o n : Nat) : Mute T (ldBytes b o n) := by
  unfold Csn.ldBytes
  split
  · exact Mute.quiet (fun _ => rfl)
  · exact Mute.quiet (fun _ => rfl)

theorem wp_iterLoop_turn {n : Nat} {w0 : World} (env : Env) (ino : Nat) (p : Params) : ∀ (rem pos last : Nat) (c : Cb) (w : World), TurnInv n w0 c.chain.subs w →
    wp (iterLoop ino p (entryCb env) rem pos last c) (fun a w' => TurnInv n w0 a.2.chain.subs w') (fun _ w' => TurnEnd n w0 w') w
  | 0, pos, last, c, w, h => by
    unfold iterLoop
    exact h
  | rem + 1, pos, last, c, w, h => by
    unfold iterLoop
    refine wp_bind (wp_noAsk ((noAsk_closed env.toLEnv).readall _ _ _) ?_ ?_)
    · rintro ⟨ok, buf⟩ w1 q1 e1 hq1
      have h := h.quiet e1 hq1
      cases ok with
      | false => exact wp_pure h
      | true =>
        refine wp_bind (wp_noAsk (Mute.ld64le _ _) ?_ (fun s w' q e1 hq => h.ended.quiet e1 hq))
        intro off w2 q2 e2 hq2
        have h := h.quiet e2 hq2
        refine wp_bind (wp_noAsk (Mute.ldBytes _ _ _) ?_ (fun s w' q e1 hq => h.ended.quiet e1 hq))
        intro id w3 q3 e3 hq3
        have h := h.quiet e3 hq3
        dsimp only
        split
        · exact wp_iterLoop_turn env ino p rem _ _ c w3 h
        · refine wp_bind (wp_mono (wp_entryCb_turn env c _ h) ?_ (fun _ _ h => h))
          rintro ⟨ok, c'⟩ w4 h
          cases ok with
          | false => exact wp_pure h
          | true => exact wp_iterLoop_turn env ino p rem _ _ c' w4 h
    · intro s w' q e1 hq
      exact h.ended.quiet e1 hq

/-- All stores of the chain are in use. -/
def AllActive (subs : List (Sub Store)) : Prop := ∀ sub ∈ subs, sub.active = true

theorem wp_true {α : Type} (m : M α) {Q : α → World → Prop} {w : World} (h : ∀ a w', Q a w') : wp m Q (fun _ _ => True) w := by
  unfold wp
  split
  · exact h _ _
  · trivial

/-- The stores of a chain are in use, and there are `n` of them if `ok`. -/
def FreshChain (ok : Bool) (n : Nat) (c : Chain Store) : Prop := AllActive c.subs ∧ (ok = true → c.subs.length = n)

theorem wp_appendStore_active (env : Env) (tpath : Bytes) (n : Nat) (p : Params) (t : Tgt) (c : Chain Store) (arg : Bytes) {w : World} (h : AllActive c.subs) :
    wp (appendStore env tpath n p t c arg) (fun a _ => FreshChain a.1 (c.subs.length + 1) a.2.2) (fun _ _ => True) w := by
  have fin : ∀ (c' : Chain Store) (s : Store) {h : Option Nat}, AllActive c'.subs → AllActive (c'.subs ++ [⟨s, true, h⟩]) := by
    intro c' s _ h sub hm
    rcases List.mem_append.1 hm with hm | hm
    · exact h sub hm
    · simp only [List.mem_singleton] at hm
      rw [hm]
  unfold appendStore
  refine wp_bind (wp_true _ (fun a w1 => ?_))
  cases a with
  | none => exact wp_pure ⟨h, by simp⟩
  | some x =>
    obtain ⟨s, t⟩ := x
    refine wp_bind ?_
    unfold chainAppend
    dsimp only
    split
    · refine wp_bind (wp_true _ (fun b w2 => ?_))
      cases b with
      | false => exact wp_bind (wp_pure (wp_pure (wp_pure ⟨h, by simp⟩)))
      | true =>
        refine wp_bind (wp_pure ?_)
        dsimp only
        split
        · trivial
        · exact wp_pure (wp_pure ⟨fin c s h, fun _ => by simp⟩)
    · refine wp_bind (wp_pure ?_)
      dsimp only
      split
      · trivial
      · exact wp_pure (wp_pure ⟨fin c s h, fun _ => by simp⟩)

theorem wp_appendAll_active (env : Env) (tpath : Bytes) (n : Nat) (p : Params) : ∀ (args : List Bytes) (t : Tgt) (c : Chain Store) (w : World), AllActive c.subs →
    wp (appendAll env tpath n p t c args) (fun a _ => FreshChain a.1 (c.subs.length + args.length) a.2.2) (fun _ _ => True) w
  | [], t, c, w, h => by
    unfold appendAll
    exact wp_pure ⟨h, fun _ => rfl⟩
  | a :: as, t, c, w, h => by
    unfold appendAll
    refine wp_bind (wp_mono (wp_appendStore_active env tpath n p t c a h) ?_ (fun _ _ h => h))
    rintro ⟨ok, t', c'⟩ w' ⟨h', hl⟩
    cases ok with
    | false => exact wp_pure ⟨h', by simp⟩
    | true =>
      refine wp_mono (wp_appendAll_active env tpath n p as t' c' w' h') (fun a w2 h2 => ⟨h2.1, fun ha => ?_⟩) (fun _ _ h => h)
      have h3 := h2.2 ha
      have h4 := hl rfl
      simp only at h4
      rw [h3, h4, List.length_cons]
      omega

/-- The stores named by options. -/
def namedStores : List Opt → Nat
  | [] => 0
  | .store _ :: os => namedStores os + 1
  | _ :: os => namedStores os

theorem wp_casyncOpts_active (env : Env) (tpath : Bytes) (n : Nat) (p : Params) : ∀ (os : List Opt) (t : Tgt) (c : Chain Store) (w : World), AllActive c.subs →
    wp (casyncOpts env tpath n p t c os) (fun a _ => ∀ t' c', a = .done t' c' → FreshChain true (c.subs.length + namedStores os) c') (fun _ _ => True) w
  | [], t, c, w, h => by
    unfold casyncOpts
    exact wp_pure (by rintro t' c' e; cases e; exact ⟨h, fun _ => rfl⟩)
  | .help :: _, t, c, w, h => by
    unfold casyncOpts
    exact wp_pure (by rintro t' c' e; cases e)
  | .store a :: os, t, c, w, h => by
    unfold casyncOpts
    refine wp_bind (wp_mono (wp_appendStore_active env tpath n p t c a h) ?_ (fun _ _ h => h))
    rintro ⟨ok, t', c'⟩ w' ⟨h', hl⟩
    cases ok with
    | false => exact wp_pure (by rintro t' c' e; cases e)
    | true =>
      refine wp_mono (wp_casyncOpts_active env tpath n p os t' c' w' h') (fun a w2 h2 t2 c2 e => ⟨(h2 t2 c2 e).1, fun _ => ?_⟩) (fun _ _ h => h)
      have h3 := (h2 t2 c2 e).2 rfl
      have h4 := hl rfl
      simp only at h4
      rw [h3, h4, namedStores]
      omega
  | .seedOutput _ :: os, t, c, w, h => by
    unfold casyncOpts
    exact wp_casyncOpts_active env tpath n p os t c w h
  | .bad :: _, t, c, w, h => by
    unfold casyncOpts
    trivial

theorem wp_chainNew_active (k : Nat) (w : World) : wp (chainNew Store k) (fun a _ => ∀ c, a = some c → c.subs = []) (fun _ _ => True) w := by
  unfold chainNew
  refine wp_bind (wp_true _ (fun b _ => ?_))
  split
  · exact wp_bind (wp_pure (wp_pure (by simp)))
  · refine wp_bind (wp_true _ (fun b _ => ?_))
    split
    · exact wp_bind (wp_pure (wp_pure (by simp)))
    · exact wp_bind (wp_pure (wp_pure (by rintro c e; cases e; rfl)))

theorem wp_csn_active (env : Env) (args : List Bytes) (w : World) :
    wp (csn env args) (fun a _ => ∀ s, a = some s → FreshChain true (args.length - 2) s.chain) (fun _ _ => True) w := by
  unfold csn
  split
  · split
    · exact wp_pure (by simp)
    · refine wp_bind (wp_true _ (fun a _ => ?_))
      split
      · exact wp_pure (by simp)
      · refine wp_bind (wp_mono (wp_chainNew_active _ _) ?_ (fun _ _ h => h))
        intro a w1 ha
        split
        · exact wp_pure (by simp)
        · next c =>
          refine wp_bind (wp_mono (wp_appendAll_active _ _ _ _ _ _ _ _ (by rw [ha c rfl]; intro _ h; simp at h)) ?_ (fun _ _ h => h))
          rintro ⟨ok, t', c'⟩ w' h'
          cases ok with
          | false => exact wp_pure (by simp)
          | true =>
            refine wp_pure ?_
            rintro s e; cases e; refine ⟨h'.1, fun _ => ?_⟩
            have := h'.2 rfl
            rw [ha c rfl] at this
            simpa using this
  · exact wp_pure (by simp)

theorem wp_casync_active (env : Env) (posix : Bool) (args : List Bytes) (w : World) :
    wp (casync env posix args) (fun a _ => ∀ s, a = some (.ready s) → FreshChain true (namedStores (getopt posix none [] args).1) s.chain) (fun _ _ => True) w := by
  unfold casync
  dsimp only
  split
  · trivial
  · refine wp_bind (wp_true _ (fun a _ => ?_))
    split
    · exact wp_pure (by simp)
    · refine wp_bind (wp_mono (wp_chainNew_active _ _) ?_ (fun _ _ h => h))
      intro a w1 ha
      split
      · exact wp_pure (by simp)
      · next c =>
        refine wp_bind (wp_mono (wp_casyncOpts_active _ _ _ _ _ _ _ _ (by rw [ha c rfl]; intro _ h; simp at h)) ?_ (fun _ _ h => h))
        intro a w2 h'
        split
        · exact wp_pure (by simp)
        · exact wp_pure (by simp)
        · split
          · trivial
          · next t' c' _ =>
            refine wp_pure ?_
            rintro s e; cases e; refine ⟨(h' _ _ rfl).1, fun _ => ?_⟩
            have := (h' _ _ rfl).2 rfl
            rw [ha c rfl] at this
            simpa using this

/-- The synchronisation. -/
theorem wp_sync_turn (env : Env) (s : Setup) {w0 w : World} {evs : List Event} (hw : w.log = w0.log ++ evs) (hq : ∀ e ∈ evs, ¬ ChainEv e) (ha : AllActive s.chain.subs) :
    wp (sync env s) (fun _ w' => TurnEnd s.chain.subs.length w0 w') (fun _ w' => TurnEnd s.chain.subs.length w0 w') w := by
  have h : TurnInv s.chain.subs.length w0 s.chain.subs w := by
    refine ⟨rfl, evs, hw, by simpa using Turns.nil.quiet hq, fun a id b e => absurd trivial (hq (.query id) (by rw [e]; simp)), fun j => ?_⟩
    constructor
    · rintro ⟨sub, h1, h2⟩
      rw [ha sub (List.mem_of_getElem? h1)] at h2
      cases h2
    · intro hm; exact absurd trivial (hq _ hm)
  unfold sync caibxIterate
  dsimp only
  refine wp_bind (wp_bind (wp_noAsk ((noAsk_closed env.toLEnv).lseek _) ?_ (fun s w' q e1 hq => h.ended.quiet e1 hq)))
  intro ok w1 q1 e1 hq1
  have h := h.quiet e1 hq1
  cases ok with
  | false => exact wp_pure (wp_pure h.ended)
  | true =>
    refine wp_mono (wp_iterLoop_turn env _ _ _ _ _ _ _ h) ?_ (fun _ _ h => h)
    rintro ⟨ok, c⟩ w2 h
    cases ok with
    | false => exact wp_pure h.ended
    | true =>
      refine wp_noAsk (NoAsk.finish env.toLEnv _) ?_ (fun s w' q e1 hq => h.ended.quiet e1 hq)
      intro _ w3 q3 e3 hq3
      exact h.ended.quiet e3 hq3

/-- The number of stores named on a command line. -/
def storeCount (posix : Bool) (argv0 : Bytes) (args : List Bytes) : Nat :=
  if streq (posixBasename argv0) (str "csn") then args.length - 2 else namedStores (getopt posix none [] args).1

/-- Every run of csn and casync. -/
theorem wp_appMain_turn (env : Env) (posix : Bool) (argv0 : Bytes) (args : List Bytes) (w : World) :
    wp (appMain env posix argv0 args) (fun _ w' => TurnEnd (storeCount posix argv0 args) w w') (fun _ w' => TurnEnd (storeCount posix argv0 args) w w') w := by
  have quiet : ∀ {w' : World} {q : List Event}, w'.log = w.log ++ q → (∀ e ∈ q, ¬ ChainEv e) → TurnEnd (storeCount posix argv0 args) w w' :=
    fun {w' q} e1 hq => ⟨q, e1, by simpa using Turns.nil.quiet hq⟩
  unfold appMain
  dsimp only
  split
  · next hname =>
    unfold csnMain
    refine wp_bind (wp_mono (wp_and (wp_csn_active env args w) (wp_noAsk ((noAsk_closed env.toLEnv).csn env rfl args)
      (Q := fun _ w' => ∃ q, w'.log = w.log ++ q ∧ ∀ e ∈ q, ¬ ChainEv e) (S := fun _ w' => ∃ q, w'.log = w.log ++ q ∧ ∀ e ∈ q, ¬ ChainEv e)
      (fun _ _ q e h => ⟨q, e, h⟩) (fun _ _ q e h => ⟨q, e, h⟩))) ?_ ?_)
    · rintro a w1 ⟨ha, q, e1, hq⟩
      cases a with
      | none => exact wp_pure (quiet e1 hq)
      | some s => 
        obtain ⟨h1, h2⟩ := ha s rfl
        have hc : s.chain.subs.length = storeCount posix argv0 args := by rw [h2 rfl, storeCount, if_pos hname]
        rw [← hc]
        exact wp_sync_turn env s e1 hq h1
    · rintro s w1 ⟨_, q, e1, hq⟩
      exact quiet e1 hq
  · next hname =>
    split
    · unfold casyncMain
      refine wp_bind (wp_mono (wp_and (wp_casync_active env posix args w) (wp_noAsk ((noAsk_closed env.toLEnv).casync env rfl posix args)
        (Q := fun _ w' => ∃ q, w'.log = w.log ++ q ∧ ∀ e ∈ q, ¬ ChainEv e) (S := fun _ w' => ∃ q, w'.log = w.log ++ q ∧ ∀ e ∈ q, ¬ ChainEv e)
        (fun _ _ q e h => ⟨q, e, h⟩) (fun _ _ q e h => ⟨q, e, h⟩))) ?_ ?_)
      · rintro a w1 ⟨ha, q, e1, hq⟩
        split
        · exact wp_pure (quiet e1 hq)
        · next s => 
          obtain ⟨h1, h2⟩ := ha s rfl
          have hc : s.chain.subs.length = storeCount posix argv0 args := by rw [h2 rfl, storeCount, if_neg hname]
          rw [← hc]
          exact wp_sync_turn env s e1 hq h1
        · refine wp_noAsk ((noAsk_closed env.toLEnv).syncNoStore env _ _ _ _) ?_ ?_
          · intro _ w2 q2 e2 hq2
            exact quiet (q := q ++ q2) (by rw [e2, e1, List.append_assoc]) (fun e he => (List.mem_append.1 he).elim (hq e) (hq2 e))
          · intro _ w2 q2 e2 hq2
            exact quiet (q := q ++ q2) (by rw [e2, e1, List.append_assoc]) (fun e he => (List.mem_append.1 he).elim (hq e) (hq2 e))
      · rintro s w1 ⟨_, q, e1, hq⟩
        exact quiet e1 hq
    · exact wp_pure (quiet (q := []) (by simp) (by simp))

end Csn.Proof
