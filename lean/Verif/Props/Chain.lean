import Verif.Spec.Chain
import Verif.Proof.Wp
/-
C13, C14: the store chain.
-/
namespace Csn.Props
open Csn Spec Proof

theorem activeFrom_ge {σ : Type} : ∀ (subs : List (Sub σ)) (i k : Nat), k ∈ activeFrom i subs → i ≤ k
  | [], i, k, h => by simp [activeFrom] at h
  | s :: r, i, k, h => by
    unfold activeFrom at h
    split at h
    · rcases List.mem_cons.mp h with h | h
      · omega
      · have := activeFrom_ge r (i + 1) k h; omega
    · have := activeFrom_ge r (i + 1) k h; omega

theorem _root_.Csn.Spec.Updated.cons {τ σ : Type} {i : Nat} {sub : Sub σ} {subs subs' : List (Sub σ)} {calls : List (Call τ σ)}
    (h : Updated (i + 1) subs calls subs') : Updated i (sub :: subs) calls (sub :: subs') := by
  obtain ⟨h1, h2, h3, h4⟩ := h
  have key : ∀ k, i + 1 ≤ k → k - i = (k - (i + 1)) + 1 := fun k hk => by omega
  refine ⟨by simp [h1], ?_, ?_, ?_⟩
  · intro c hc
    obtain ⟨s, a, b, d⟩ := h2 c hc
    exact ⟨s, by omega, by rw [key _ a]; simpa using b, d⟩
  · intro c hc
    obtain ⟨_, a, _, _⟩ := h2 c hc
    obtain ⟨s, b, d⟩ := h3 c hc
    exact ⟨s, by rw [key _ a]; simpa using b, d⟩
  · intro j hj
    cases j with
    | zero => rfl
    | succ j =>
      simp only [List.getElem?_cons_succ]
      exact h4 j (fun c hc e => hj c hc (by omega))

theorem _root_.Csn.Spec.Updated.call {τ σ : Type} {i : Nat} {sub sub' : Sub σ} {subs subs' : List (Sub σ)} {calls : List (Call τ σ)}
    {c : Call τ σ} (h : Updated (i + 1) subs calls subs') (hk : c.k = i) (hs : c.store = sub.s)
    (hs' : sub'.s = c.store') (ha : sub'.active = true ↔ c.ans ≠ none) :
    Updated i (sub :: subs) (c :: calls) (sub' :: subs') := by
  obtain ⟨h1, h2, h3, h4⟩ := h
  have key : ∀ k, i + 1 ≤ k → k - i = (k - (i + 1)) + 1 := fun k hk => by omega
  refine ⟨by simp [h1], ?_, ?_, ?_⟩
  · intro d hd
    rcases List.mem_cons.mp hd with e | hd
    · subst e
      exact ⟨sub, by omega, by simp [hk], hs⟩
    · obtain ⟨s, a, b, e⟩ := h2 d hd
      exact ⟨s, by omega, by rw [key _ a]; simpa using b, e⟩
  · intro d hd
    rcases List.mem_cons.mp hd with e | hd
    · subst e
      exact ⟨sub', by simp [hk], hs', ha⟩
    · obtain ⟨_, a, _, _⟩ := h2 d hd
      obtain ⟨s, b, e⟩ := h3 d hd
      exact ⟨s, by rw [key _ a]; simpa using b, e⟩
  · intro j hj
    cases j with
    | zero => exact absurd (by simpa using hk) (hj c (by simp))
    | succ j =>
      simp only [List.getElem?_cons_succ]
      exact h4 j (fun d hd e => hj d (by simp [hd]) (by omega))

theorem _root_.Csn.Spec.Updated.nil {τ σ : Type} (i : Nat) (subs : List (Sub σ)) : Updated i subs ([] : List (Call τ σ)) subs :=
  ⟨rfl, by simp, by simp, fun _ _ => rfl⟩

theorem wp_chainLoop {τ σ : Type} (get : Behaviour τ σ) (id : Id) : ∀ (subs : List (Sub σ)) (i : Nat) (t : τ)
    (out : Bytes) (w : World),
    wp (chainLoop get id i t subs out)
      (fun a w' => ∃ calls, Consulted get id i subs ⟨t, out, w⟩ calls a.1 a.2.2.1 ⟨a.2.1, a.2.2.2, w'⟩)
      (fun s w' => ∃ calls k, Interrupted get id i subs ⟨t, out, w⟩ calls k s w') w
  | [], i, t, out, w => by
    unfold chainLoop
    exact wp_pure ⟨[], by simp, rfl, Updated.nil _ _, Or.inr ⟨by simp, rfl, rfl⟩⟩
  | sub :: subs, i, t, out, w => by
    have ih := wp_chainLoop get id subs (i + 1)
    unfold chainLoop
    by_cases ha : sub.active
    · simp only [ha, Bool.not_true, Bool.false_eq_true, if_false]
      refine wp_bind (wp_emit ?_)
      apply wp_bind
      have hw : ({ w with log := w.log ++ [Event.ask i id] } : World) = asked w i id := rfl
      rw [hw]
      cases hg : get t sub.s id out (asked w i id) with
      | mk res w1 =>
      cases res with
      | stop s =>
        simp only [wp, hg]
        exact ⟨[], i, by simp, by simp, by simp [activeFrom, ha],
          ⟨t, out, w⟩, sub, rfl, Nat.le_refl _, by simp, hg⟩
      | ok a =>
        obtain ⟨r, t1, s1, out1⟩ := a
        let c : Call τ σ := ⟨i, ⟨t, out, w⟩, sub.s, r, s1, ⟨t1, out1, w1⟩⟩
        have hreal : c.Real get id := hg
        have hkill : ∀ s w', (∃ calls k, Interrupted get id (i + 1) subs c.after calls k s w') → Miss r →
            ∃ calls k, Interrupted get id i (sub :: subs) ⟨t, out, w⟩ calls k s w' := by
          intro s w' ⟨calls, k, h⟩ hm
          obtain ⟨b, sb, l1, l2, l3, l4⟩ := h.stop
          refine ⟨c :: calls, k, ?_, ?_, ?_, b, sb, ⟨rfl, l1⟩, by omega, ?_, l4⟩
          · intro d hd
            rcases List.mem_cons.mp hd with e | hd
            · subst e; exact hreal
            · exact h.real d hd
          · intro d hd
            rcases List.mem_cons.mp hd with e | hd
            · subst e; exact hm
            · exact h.misses d hd
          · obtain ⟨x, hx⟩ := h.order
            exact ⟨x, by simp [activeFrom, ha, c]; simpa using hx⟩
          · have : k - i = (k - (i + 1)) + 1 := by omega
            rw [this]; simpa using l3
        have hmiss : ∀ (sub' : Sub σ) (a : Option Nat × τ × List (Sub σ) × Bytes) w', Miss r → sub'.s = s1 → (sub'.active = true ↔ r ≠ none) →
            (∃ calls, Consulted get id (i + 1) subs c.after calls a.1 a.2.2.1 ⟨a.2.1, a.2.2.2, w'⟩) →
            ∃ calls, Consulted get id i (sub :: subs) ⟨t, out, w⟩ calls a.1 (sub' :: a.2.2.1) ⟨a.2.1, a.2.2.2, w'⟩ := by
          intro sub' a w' hm e1 e2 ⟨calls, h⟩
          refine ⟨c :: calls, ?_, ⟨rfl, h.linked⟩, h.updated.call rfl rfl e1 e2, ?_⟩
          · intro d hd
            rcases List.mem_cons.mp hd with e | hd
            · subst e; exact hreal
            · exact h.real d hd
          · rcases h.result with ⟨cs, d, n, r1, r2, r3, r4, r5⟩ | ⟨r1, r2, r3⟩
            · refine Or.inl ⟨c :: cs, d, n, by simp [r1], ?_, r3, r4, ?_⟩
              · intro d hd
                rcases List.mem_cons.mp hd with e | hd
                · subst e; exact hm
                · exact r2 d hd
              · obtain ⟨x, hx⟩ := r5
                exact ⟨x, by simp [activeFrom, ha, c]; simpa using hx⟩
            · refine Or.inr ⟨?_, r2, by simp [activeFrom, ha, c]; exact r3⟩
              intro d hd
              rcases List.mem_cons.mp hd with e | hd
              · subst e; exact hm
              · exact r1 d hd
        simp only [wp, hg]
        cases r with
        | none =>
          refine wp_bind (wp_emit ?_)
          refine wp_bind (wp_mono (ih t1 out1 _) (fun a w' h => ?_) (fun s w' h => hkill s w' h (Or.inl rfl)))
          refine wp_pure (hmiss _ a w' (Or.inl rfl) rfl (by simp) h)
        | some n =>
          cases n with
          | zero =>
            refine wp_bind (wp_mono (ih t1 out1 w1) (fun a w' h => ?_) (fun s w' h => hkill s w' h (Or.inr rfl)))
            exact wp_pure (hmiss _ a w' (Or.inr rfl) rfl (by simp [ha]) h)
          | succ n =>
            show ∃ calls, Consulted get id i (sub :: subs) ⟨t, out, w⟩ calls (some (n + 1)) (⟨s1, true, _⟩ :: subs) ⟨t1, out1, w1⟩
            refine ⟨[c], by simpa using hreal, ⟨rfl, rfl⟩,
              (Updated.nil (i + 1) subs).call rfl rfl rfl (by simp [ha, c]), Or.inl ⟨[], c, n, rfl, by simp, rfl, rfl, ?_⟩⟩
            simp [activeFrom, ha, c]
    · have ha' : sub.active = false := by simpa using ha
      simp only [ha', Bool.not_false, if_true]
      refine wp_bind (wp_mono (ih t out w) (fun a w' ⟨calls, h⟩ => ?_) (fun s w' ⟨calls, k, h⟩ => ?_))
      · apply wp_pure
        refine ⟨calls, h.real, h.linked, h.updated.cons, ?_⟩
        simpa [activeFrom, ha'] using h.result
      · obtain ⟨b, sb, l1, l2, l3, l4⟩ := h.stop
        refine ⟨calls, k, h.real, h.misses, by simpa [activeFrom, ha'] using h.order, b, sb, l1, by omega, ?_, l4⟩
        have : k - i = (k - (i + 1)) + 1 := by omega
        rw [this]; simpa using l3

/-- A chain query is recorded in the log before any store is asked. -/
def queried (w : World) (id : Id) : World := { w with log := w.log ++ [.query id] }

/-- The result of a chain query is recorded in the log after the last store was asked. -/
def answered (w : World) (id : Id) (r : Option Nat) : World := { w with log := w.log ++ [.answer id r] }

/-- C13: every query of a chain asks the active stores, in order, each with its current state and
each finding the buffer and world the previous one left, until one returns data; that answer (or
"not found") is the result.  Stores that were not asked are unchanged.  If the process stops during
the query, the stores asked up to then were asked in order and none of the earlier ones had data. -/
theorem C13_first_hit_wins {τ σ : Type} (get : Behaviour τ σ) (t : τ) (c : Chain σ) (id : Id) (out : Bytes) (w : World) :
    wp (chainGet get t c id out)
      (fun a w' => ∃ calls w1, w' = answered w1 id a.1 ∧
        Consulted get id 0 c.subs ⟨t, out, queried w id⟩ calls a.1 a.2.2.1.subs ⟨a.2.1, a.2.2.2, w1⟩)
      (fun s w' => ∃ calls k, Interrupted get id 0 c.subs ⟨t, out, queried w id⟩ calls k s w') w := by
  unfold chainGet
  refine wp_bind (wp_emit ?_)
  refine wp_bind (wp_mono (wp_chainLoop get id c.subs 0 t out (queried w id)) (fun a w' ⟨calls, h⟩ => ?_) (fun s w' h => h))
  exact wp_bind (wp_emit (wp_pure ⟨calls, w', rfl, h⟩))

/-- Query a chain for several IDs in a row. -/
def chainMany {τ σ : Type} (get : Behaviour τ σ) : τ → Chain σ → Bytes → List Id → M (List (Option Nat) × τ × Chain σ × Bytes)
  | t, c, out, [] => return ([], t, c, out)
  | t, c, out, id :: ids => do
    let (r, t, c, out) ← chainGet get t c id out
    let (rs, t, c, out) ← chainMany get t c out ids
    return (r :: rs, t, c, out)

/-- A store that failed in an earlier query (or earlier in the same query) is not called again. -/
def NeverAgain {τ σ : Type} (hist : List (List (Call τ σ))) : Prop :=
  (hist.flatten).Pairwise (fun c d => c.ans = none → d.k ≠ c.k)

/-- Every store that was active at the start and has not failed before is called in each query, unless
a store before it had the chunk. -/
def StillAsked {τ σ : Type} (subs : List (Sub σ)) (hist : List (List (Call τ σ))) : Prop :=
  ∀ pre q post, hist = pre ++ q :: post → ∀ k ∈ activeFrom 0 subs, (∀ cs ∈ pre, ∀ c ∈ cs, c.k = k → c.ans ≠ none) →
    (∃ c ∈ q, c.k = k) ∨ (∃ c ∈ q, c.k < k ∧ ∃ n, c.ans = some (n + 1))

theorem mem_activeFrom {σ : Type} : ∀ (subs : List (Sub σ)) (i k : Nat),
    k ∈ activeFrom i subs ↔ i ≤ k ∧ ∃ s, subs[k - i]? = some s ∧ s.active = true
  | [], i, k => by simp [activeFrom]
  | s :: r, i, k => by
    have ih := mem_activeFrom r (i + 1) k
    unfold activeFrom
    by_cases hk : k = i
    · subst hk
      by_cases ha : s.active
      · simp [ha]
      · have : ¬ (k + 1 ≤ k) := by omega
        simp [ha, ih, this]
    · by_cases hi : i ≤ k
      · have e : k - i = (k - (i + 1)) + 1 := by omega
        have h1 : i + 1 ≤ k := by omega
        by_cases ha : s.active
        · simp [ha, ih, hk, hi, e, h1]
        · simp [ha, ih, hi, e, h1]
      · have h1 : ¬ (i + 1 ≤ k) := by omega
        by_cases ha : s.active
        · simp [ha, ih, hk, hi, h1]
        · simp [ha, ih, hi, h1]

theorem activeFrom_sorted {σ : Type} : ∀ (subs : List (Sub σ)) (i : Nat), (activeFrom i subs).Pairwise (· < ·)
  | [], i => by simp [activeFrom]
  | s :: r, i => by
    unfold activeFrom
    split
    · refine List.pairwise_cons.mpr ⟨fun k hk => ?_, activeFrom_sorted r (i + 1)⟩
      have := activeFrom_ge r (i + 1) k hk; omega
    · exact activeFrom_sorted r (i + 1)

theorem updated_active {τ σ : Type} {subs subs' : List (Sub σ)} {calls : List (Call τ σ)} (h : Updated 0 subs calls subs')
    (hsub : ∀ c ∈ calls, c.k ∈ activeFrom 0 subs) (k : Nat)
    (huniq : ∀ c ∈ calls, ∀ d ∈ calls, c.k = d.k → c.ans = d.ans) :
    k ∈ activeFrom 0 subs' ↔ k ∈ activeFrom 0 subs ∧ ∀ c ∈ calls, c.k = k → c.ans ≠ none := by
  by_cases hc : ∃ c ∈ calls, c.k = k
  · obtain ⟨c, h1, h2⟩ := hc
    subst h2
    obtain ⟨s', b, d, e⟩ := h.called c h1
    rw [mem_activeFrom]
    constructor
    · rintro ⟨_, s, f, g⟩
      rw [b] at f; cases f
      refine ⟨hsub c h1, fun x hx hxk => ?_⟩
      rw [huniq x hx c h1 hxk]
      exact e.mp g
    · rintro ⟨_, g⟩
      exact ⟨by omega, s', b, e.mpr (g c h1 rfl)⟩
  · have hc' : ∀ c ∈ calls, c.k ≠ 0 + k := fun c h1 h2 => hc ⟨c, h1, by omega⟩
    rw [mem_activeFrom, mem_activeFrom, Nat.sub_zero, h.others k hc']
    constructor
    · intro hh
      exact ⟨hh, fun c h1 h2 => absurd ⟨c, h1, h2⟩ hc⟩
    · exact fun hh => hh.1

/-- Facts about one query needed for histories. -/
theorem consulted_facts {τ σ : Type} {get : Behaviour τ σ} {id : Id} {subs subs' : List (Sub σ)} {a b : Around τ}
    {calls : List (Call τ σ)} {r : Option Nat} (h : Consulted get id 0 subs a calls r subs' b) :
    (calls.map (·.k)).Pairwise (· < ·) ∧ (∀ c ∈ calls, c.k ∈ activeFrom 0 subs) ∧
    (∀ k, k ∈ activeFrom 0 subs' ↔ k ∈ activeFrom 0 subs ∧ ∀ c ∈ calls, c.k = k → c.ans ≠ none) ∧
    (∀ k ∈ activeFrom 0 subs, (∃ c ∈ calls, c.k = k) ∨ (∃ c ∈ calls, c.k < k ∧ ∃ n, c.ans = some (n + 1))) := by
  have hpre : calls.map (·.k) <+: activeFrom 0 subs := by
    rcases h.result with ⟨cs, c, n, _, _, _, _, h⟩ | ⟨_, _, h⟩
    · exact h
    · rw [h]; exact List.prefix_refl _
  have hs := (activeFrom_sorted subs 0).sublist hpre.sublist
  have hmem : ∀ c ∈ calls, c.k ∈ activeFrom 0 subs := fun c hc =>
    hpre.subset (List.mem_map.mpr ⟨c, hc, rfl⟩)
  have huniq : ∀ c ∈ calls, ∀ d ∈ calls, c.k = d.k → c.ans = d.ans := by
    intro c hc d hd e
    rw [List.pairwise_map] at hs
    obtain ⟨i, hi, rfl⟩ := List.getElem_of_mem hc
    obtain ⟨j, hj, rfl⟩ := List.getElem_of_mem hd
    have := List.pairwise_iff_getElem.mp hs
    rcases Nat.lt_trichotomy i j with hl | hl | hl
    · have := this i j hi hj hl; omega
    · subst hl; rfl
    · have := this j i hj hi hl; omega
  refine ⟨hs, hmem, fun k => updated_active h.updated hmem k huniq, fun k hk => ?_⟩
  rcases h.result with ⟨cs, c, n, h1, h2, h3, h4, h5⟩ | ⟨h1, h2, h3⟩
  · by_cases hin : k ∈ calls.map (·.k)
    · obtain ⟨d, hd, e⟩ := List.mem_map.mp hin
      exact Or.inl ⟨d, hd, e⟩
    · right
      obtain ⟨rest, hrest⟩ := hpre
      have hsort := activeFrom_sorted subs 0
      rw [← hrest] at hk hsort
      rcases List.mem_append.mp hk with hk | hk
      · exact absurd hk hin
      · refine ⟨c, by simp [h1], ?_, n, h3⟩
        exact (List.pairwise_append.mp hsort).2.2 c.k (List.mem_map.mpr ⟨c, by simp [h1], rfl⟩) k hk
  · rw [← h3] at hk
    obtain ⟨d, hd, e⟩ := List.mem_map.mp hk
    exact Or.inl ⟨d, hd, e⟩

/-- The history of a session is one of real queries, one per ID in order. -/
def RealHistory {τ σ : Type} (get : Behaviour τ σ) : List (Sub σ) → Around τ → List Id → List (List (Call τ σ)) →
    List (Option Nat) → List (Sub σ) → Around τ → Prop
  | subs, a, [], hist, rs, subs', b => hist = [] ∧ rs = [] ∧ subs' = subs ∧ a = b
  | subs, a, id :: ids, hist, rs, subs', b => ∃ q hist' r rs' subs1 m, hist = q :: hist' ∧ rs = r :: rs' ∧
      Consulted get id 0 subs ⟨a.t, a.out, queried a.w id⟩ q r subs1 m ∧
      RealHistory get subs1 ⟨m.t, m.out, answered m.w id r⟩ ids hist' rs' subs' b

theorem realHistory_facts {τ σ : Type} {get : Behaviour τ σ} : ∀ (ids : List Id) (subs : List (Sub σ)) (a : Around τ)
    (hist : List (List (Call τ σ))) (rs : List (Option Nat)) (subs' : List (Sub σ)) (b : Around τ),
    RealHistory get subs a ids hist rs subs' b →
    NeverAgain hist ∧ StillAsked subs hist ∧ (∀ cs ∈ hist, ∀ c ∈ cs, c.k ∈ activeFrom 0 subs) ∧
    (∀ k, k ∈ activeFrom 0 subs' ↔ k ∈ activeFrom 0 subs ∧ ∀ cs ∈ hist, ∀ c ∈ cs, c.k = k → c.ans ≠ none)
  | [], subs, a, hist, rs, subs', b, h => by
    obtain ⟨h1, _, h2, _⟩ := h
    subst h1 h2
    refine ⟨List.Pairwise.nil, ?_, by simp, by simp⟩
    intro pre q post e
    simp at e
  | id :: ids, subs, a, hist, rs, subs', b, h => by
    obtain ⟨q, hist', r, rs', subs1, m, h1, h2, h3, h4⟩ := h
    subst h1
    obtain ⟨i1, i2, i3, i4⟩ := realHistory_facts ids subs1 _ hist' rs' subs' b h4
    obtain ⟨f1, f2, f3, f4⟩ := consulted_facts h3
    refine ⟨?_, ?_, ?_, ?_⟩
    · unfold NeverAgain at i1 ⊢
      rw [List.flatten_cons, List.pairwise_append]
      refine ⟨?_, i1, ?_⟩
      · rw [List.pairwise_map] at f1
        exact f1.imp (fun {x y} hlt _ => by omega)
      · intro c hc d hd hn hk
        obtain ⟨cs, hcs, hd⟩ := List.mem_flatten.mp hd
        have := (f3 d.k).mp (i3 cs hcs d hd)
        exact this.2 c hc hk.symm hn
    · intro pre q' post e k hk hok
      cases pre with
      | nil =>
        simp only [List.nil_append, List.cons.injEq] at e
        rw [← e.1]
        exact f4 k hk
      | cons p pre =>
        simp only [List.cons_append, List.cons.injEq] at e
        obtain ⟨e1, e2⟩ := e
        subst e1
        refine i2 pre q' post e2 k ((f3 k).mpr ⟨hk, hok q (by simp)⟩) (fun cs hcs => hok cs (by simp [hcs]))
    · intro cs hcs c hc
      rcases List.mem_cons.mp hcs with e | hcs
      · subst e; exact f2 c hc
      · exact ((f3 c.k).mp (i3 cs hcs c hc)).1
    · intro k
      rw [i4, f3]
      constructor
      · rintro ⟨⟨x, y⟩, z⟩
        refine ⟨x, fun cs hcs => ?_⟩
        rcases List.mem_cons.mp hcs with e | hcs
        · subst e; exact y
        · exact z cs hcs
      · rintro ⟨x, y⟩
        exact ⟨⟨x, y q (by simp)⟩, fun cs hcs => y cs (by simp [hcs])⟩

theorem wp_chainMany {τ σ : Type} (get : Behaviour τ σ) : ∀ (ids : List Id) (t : τ) (c : Chain σ) (out : Bytes) (w : World),
    wp (chainMany get t c out ids)
      (fun a w' => ∃ hist, RealHistory get c.subs ⟨t, out, w⟩ ids hist a.1 a.2.2.1.subs ⟨a.2.1, a.2.2.2, w'⟩)
      (fun s w' => ∃ ids1 id ids2 hist rs subs' m calls k, ids = ids1 ++ id :: ids2 ∧
        RealHistory get c.subs ⟨t, out, w⟩ ids1 hist rs subs' m ∧
        Interrupted get id 0 subs' ⟨m.t, m.out, queried m.w id⟩ calls k s w') w
  | [], t, c, out, w => by
    unfold chainMany
    exact wp_pure ⟨[], rfl, rfl, rfl, rfl⟩
  | id :: ids, t, c, out, w => by
    unfold chainMany
    refine wp_bind (wp_mono (C13_first_hit_wins get t c id out w) (fun a w1 ⟨q, w0, e0, hq⟩ => ?_) (fun s w' ⟨calls, k, h⟩ => ?_))
    · subst e0
      refine wp_bind (wp_mono (wp_chainMany get ids a.2.1 a.2.2.1 a.2.2.2 (answered w0 id a.1)) (fun b w2 ⟨hist, hh⟩ => ?_) (fun s w' hh => ?_))
      · exact wp_pure ⟨q :: hist, q, hist, _, _, _, _, rfl, rfl, hq, hh⟩
      · obtain ⟨ids1, i, ids2, hist, rs, subs', m, calls, k, e, h1, h2⟩ := hh
        exact ⟨id :: ids1, i, ids2, q :: hist, _ :: rs, subs', m, calls, k, by simp [e], ⟨q, hist, _, rs, _, _, rfl, rfl, hq, h1⟩, h2⟩
    · exact ⟨[], id, ids, [], [], c.subs, ⟨t, out, w⟩, calls, k, rfl, ⟨rfl, rfl, rfl, rfl⟩, h⟩

/-- C14: whatever the stores do, in every sequence of queries a store that has failed is not called
again, and every store that has not failed is called in each query unless one before it had the chunk.
This also holds for the queries finished before a stop, and in the query in which the process stops
no failed store is called. -/
theorem C14_failed_store_not_asked_again {τ σ : Type} (get : Behaviour τ σ) (ids : List Id) (t : τ) (c : Chain σ)
    (out : Bytes) (w : World) :
    wp (chainMany get t c out ids)
      (fun a w' => ∃ hist, RealHistory get c.subs ⟨t, out, w⟩ ids hist a.1 a.2.2.1.subs ⟨a.2.1, a.2.2.2, w'⟩ ∧
        NeverAgain hist ∧ StillAsked c.subs hist)
      (fun s w' => ∃ ids1 id ids2 hist rs subs' m calls k, ids = ids1 ++ id :: ids2 ∧
        RealHistory get c.subs ⟨t, out, w⟩ ids1 hist rs subs' m ∧
        Interrupted get id 0 subs' ⟨m.t, m.out, queried m.w id⟩ calls k s w' ∧
        NeverAgain (hist ++ [calls]) ∧ StillAsked c.subs hist ∧
        ∀ cs ∈ hist ++ [calls], ∀ d ∈ cs, d.ans = none → d.k ≠ k) w := by
  refine wp_mono (wp_chainMany get ids t c out w) (fun a w' ⟨hist, h⟩ => ?_) (fun s w' h => ?_)
  · obtain ⟨h1, h2, _⟩ := realHistory_facts _ _ _ _ _ _ _ h
    exact ⟨hist, h, h1, h2⟩
  · obtain ⟨ids1, i, ids2, hist, rs, subs', m, calls, k, e, h1, h2⟩ := h
    obtain ⟨f1, f2, f3, f4⟩ := realHistory_facts _ _ _ _ _ _ _ h1
    have hsort := (activeFrom_sorted subs' 0).sublist h2.order.sublist
    rw [List.pairwise_append] at hsort
    have hact : ∀ x ∈ calls.map (·.k) ++ [k], x ∈ activeFrom 0 subs' := fun x hx => h2.order.subset hx
    refine ⟨ids1, i, ids2, hist, rs, subs', m, calls, k, e, h1, h2, ?_, f2, ?_⟩
    · unfold NeverAgain at f1 ⊢
      rw [List.flatten_append, List.pairwise_append]
      refine ⟨f1, ?_, ?_⟩
      · have := hsort.1
        rw [List.pairwise_map] at this
        simp only [List.flatten_cons, List.flatten_nil, List.append_nil]
        exact this.imp (fun {x y} hlt _ => by omega)
      · intro x hx d hd hn hk
        obtain ⟨cs, hcs, hx⟩ := List.mem_flatten.mp hx
        simp only [List.flatten_cons, List.flatten_nil, List.append_nil] at hd
        have := (f4 d.k).mp (hact d.k (List.mem_append_left _ (List.mem_map.mpr ⟨d, hd, rfl⟩)))
        exact this.2 cs hcs x hx hk.symm hn
    · intro cs hcs d hd hn hk
      rcases List.mem_append.mp hcs with hcs | hcs
      · exact ((f4 k).mp (hact k (by simp))).2 cs hcs d hd hk hn
      · simp only [List.mem_singleton] at hcs
        subst hcs
        have := hsort.2.2 d.k (List.mem_map.mpr ⟨d, hd, rfl⟩) k (by simp)
        omega

/-! ### Appending (store.c:83-134) -/

/-- Append several stores. -/
def appendMany {σ : Type} : Chain σ → List σ → M (Bool × Chain σ)
  | c, [] => return (true, c)
  | c, s :: ss => do
    match ← chainAppend c s with
    | (false, c) => return (false, c)
    | (true, c) => appendMany c ss

/-- Sub-stores as they are after appending, from slot `n` on; the first `z` slots come from calloc. -/
def freshSubs {σ : Type} (z : Nat) : Nat → List σ → List (Sub σ)
  | _, [] => []
  | n, s :: ss => ⟨s, true, if n < z then some 0 else none⟩ :: freshSubs z (n + 1) ss

theorem freshSubs_map {σ : Type} (z : Nat) : ∀ (n : Nat) (ss : List σ), (freshSubs z n ss).map (fun x => (x.s, x.active)) = ss.map (fun s => (s, true))
  | _, [] => rfl
  | n, s :: ss => by
    unfold freshSubs
    simp only [List.map_cons, freshSubs_map z (n + 1) ss]

theorem wp_chainAppend {σ : Type} (c : Chain σ) (s : σ) (w : World) (hs : 0 < c.space) (hs2 : c.space < 2 ^ 62) (hl : c.subs.length ≤ c.space) :
    wp (chainAppend c s) (fun a w' => w' = { w with mem := w'.mem } ∧
        (a.1 = true → a.2.subs = c.subs ++ [⟨s, true, if c.subs.length < c.zeroed then some 0 else none⟩] ∧ a.2.queries = c.queries ∧ a.2.zeroed = c.zeroed ∧ a.2.subs.length ≤ a.2.space ∧
          0 < a.2.space ∧ (a.2.space = c.space ∨ a.2.space = 2 * c.space ∧ a.2.subs.length = c.space + 1)) ∧
        (a.1 = false → a.2 = c))
      (fun _ _ => False) w := by
  unfold chainAppend
  by_cases hg : c.subs.length ≥ c.space
  · have hm : c.space * 2 % 2 ^ 64 = 2 * c.space := by omega
    simp only [hg, if_true]
    refine wp_bind (wp_alloc ?_)
    cases hb : (allocPure (c.space * 2 % 2 ^ 64 * 16 % 2 ^ 64) w.mem).1
    · simp only [Bool.not_false, if_true]
      exact wp_bind (wp_pure (wp_pure ⟨rfl, by simp, by simp⟩))
    · simp only [Bool.not_true, Bool.false_eq_true, if_false]
      refine wp_bind (wp_pure ?_)
      have h1 : ¬ (c.subs.length ≥ c.space * 2 % 2 ^ 64) := by omega
      simp only [h1, if_false]
      refine wp_pure ⟨rfl, ?_, by simp⟩
      intro _
      simp only [List.length_append, List.length_cons, List.length_nil]
      refine ⟨trivial, trivial, trivial, ?_, ?_, Or.inr ?_⟩ <;> omega
  · simp only [hg, if_false]
    refine wp_bind (wp_pure ?_)
    simp only [hg, if_false]
    refine wp_pure ⟨rfl, ?_, by simp⟩
    intro _
    refine ⟨rfl, rfl, rfl, by simp; omega, hs, Or.inl rfl⟩

theorem wp_appendMany {σ : Type} : ∀ (ss : List σ) (c : Chain σ) (w : World), 0 < c.space → c.subs.length ≤ c.space →
    c.space < 2 ^ 62 → 2 * (c.subs.length + ss.length) < 2 ^ 62 →
    wp (appendMany c ss) (fun a w' => w' = { w with mem := w'.mem } ∧ a.2.queries = c.queries ∧
        (a.1 = true → a.2.subs = c.subs ++ freshSubs c.zeroed c.subs.length ss) ∧
        (a.1 = false → ∃ k, k < ss.length ∧ a.2.subs = c.subs ++ freshSubs c.zeroed c.subs.length (ss.take k)))
      (fun _ _ => False) w
  | [], c, w, _, _, _, _ => by
    unfold appendMany
    exact wp_pure ⟨rfl, rfl, by simp [freshSubs], by simp⟩
  | s :: ss, c, w, h1, h2, h3, h4 => by
    unfold appendMany
    have h4' : 2 * (c.subs.length + ss.length + 1) < 2 ^ 62 := by simp only [List.length_cons] at h4; omega
    refine wp_bind (wp_mono (wp_chainAppend c s w h1 h3 h2) (fun a w1 h => ?_) (fun _ _ h => h))
    obtain ⟨ok, c1⟩ := a
    obtain ⟨e, ht, hf⟩ := h
    cases ok with
    | false =>
      refine wp_pure ⟨e, ?_, by simp, fun _ => ⟨0, by simp, ?_⟩⟩
      · rw [show c1 = c from hf rfl]
      · simpa [freshSubs] using congrArg Chain.subs (hf rfl)
    | true =>
      obtain ⟨a1, a2, az, a3, a4, a5⟩ := ht rfl
      simp only at a1 a2 az a3 a4 a5
      have hl : c1.subs.length = c.subs.length + 1 := by rw [a1]; simp
      refine wp_mono (wp_appendMany ss c1 w1 a4 a3 (by omega) (by omega)) (fun b w2 ⟨b1, b2, b3, b4⟩ => ?_) (fun _ _ h => h)
      refine ⟨?_, by rw [b2, a2], ?_, ?_⟩
      · rw [b1, e]
      · intro h
        rw [b3 h, az, hl, a1]; simp [freshSubs]
      · intro h
        obtain ⟨k, k1, k2⟩ := b4 h
        exact ⟨k + 1, by simpa using k1, by rw [k2, az, hl, a1]; simp [freshSubs]⟩

/-- C13 (set-up): a chain created with any size hint and filled with stores holds exactly these, in
the order in which they were appended and all active, or an allocation failed; nothing is written
behind the allocated array. -/
theorem C13_appended_in_order {σ : Type} (hint : Nat) (ss : List σ) (w : World) (hh : hint < 2 ^ 62) (hn : 2 * ss.length < 2 ^ 62) :
    wp (do match ← chainNew σ hint with
        | none => return none
        | some c => do
          match ← appendMany c ss with
          | (false, _) => return none
          | (true, c) => return some c)
      (fun a w' => w' = { w with mem := w'.mem } ∧ ∀ c, a = some c → c.subs.map (fun x => (x.s, x.active)) = ss.map (fun s => (s, true)) ∧ c.queries = 0)
      (fun _ _ => False) w := by
  unfold chainNew
  refine wp_bind (wp_bind (wp_alloc ?_))
  cases (allocPure 256 w.mem).1
  · exact wp_pure (wp_pure ⟨rfl, by simp⟩)
  · simp only [Bool.not_true, Bool.false_eq_true, if_false]
    refine wp_bind (wp_alloc ?_)
    cases (allocPure ((if hint ≠ 0 then hint else 1) * 16) (allocPure 256 w.mem).2).1
    · exact wp_pure (wp_pure ⟨rfl, by simp⟩)
    · refine wp_pure ?_
      have hsp : 0 < (if hint ≠ 0 then hint else 1) ∧ (if hint ≠ 0 then hint else 1) < 2 ^ 62 := by split <;> omega
      refine wp_bind (wp_mono (wp_appendMany ss _ _ hsp.1 (by simp) hsp.2 (by simpa using hn)) (fun a w1 h => ?_) (fun _ _ h => h))
      obtain ⟨ok, c1⟩ := a
      obtain ⟨e, e2, e3, e4⟩ := h
      cases ok with
      | false => exact wp_pure ⟨by rw [e], by simp⟩
      | true =>
        refine wp_pure ⟨by rw [e], ?_⟩
        intro c hc
        simp only [Option.some.injEq] at hc
        subst hc
        exact ⟨by rw [show c1.subs = _ from e3 rfl]; simpa using freshSubs_map _ _ ss, e2⟩

/-! ### A concrete chain: the first store fails, the second misses, the third has every chunk. -/

def scripted : Behaviour Unit (Option Nat) := fun t s _ out => pure (s, t, s, out)

def exChain : Chain (Option Nat) := ⟨[⟨none, true, some 0⟩, ⟨some 0, true, some 0⟩, ⟨some 5, true, some 0⟩, ⟨some 7, true, some 0⟩], 4, 4, 0⟩

def emptyWorld : World := ⟨fun _ => [], fun _ => .reg, fun _ => none, 0, [], [], [], []⟩

example : (match chainMany scripted () exChain [] [[1], [2]] emptyWorld with
    | (.ok (rs, _, c, _), w) => (rs, c.subs.map (fun s => (s.active, s.hits)), w.log)
    | _ => ([], [], [])) =
    ([some 5, some 5], [(false, some 0), (true, some 0), (true, some 2), (true, some 0)],
      [.query [1], .ask 0 [1], .failed 0, .ask 1 [1], .ask 2 [1], .answer [1] (some 5),
        .query [2], .ask 1 [2], .ask 2 [2], .answer [2] (some 5)]) := by decide +kernel

end Csn.Props
