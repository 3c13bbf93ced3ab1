import Verif.Spec.Stats
import Verif.Proof.Turns
import Verif.Proof.RunAny
/-
The statistics, over whole runs.
-/
namespace Csn.Proof
open Csn Spec

/-! ### Counting -/

/-- The store asked last. -/
def lastAsk : Option Nat → List Event → Option Nat
  | s, [] => s
  | _, .query _ :: l => lastAsk none l
  | _, .ask j _ :: l => lastAsk (some j) l
  | s, _ :: l => lastAsk s l

theorem hitCount_append (k : Nat) (a b : List Event) : ∀ s, hitCount k s (a ++ b) = hitCount k s a + hitCount k (lastAsk s a) b := by
  induction a with
  | nil => intro s; simp [hitCount, lastAsk]
  | cons e a ih =>
    intro s
    cases e with
    | answer id r => rcases r with _ | _ | r <;> simp only [List.cons_append, hitCount, lastAsk, ih] <;> omega
    | _ => simp only [List.cons_append, hitCount, lastAsk, ih]

theorem lastAsk_append (a b : List Event) : ∀ s, lastAsk s (a ++ b) = lastAsk (lastAsk s a) b := by
  induction a with
  | nil => intro s; rfl
  | cons e a ih => intro s; cases e <;> simp only [List.cons_append, lastAsk, ih]

/-- Events that do not change the counts. -/
def Still (e : Event) : Prop := (∃ k id, e = .ask k id) ∨ (∃ k, e = .failed k) ∨ ¬ TopEv e

theorem still_count {l : List Event} (h : ∀ e ∈ l, Still e) : queryCount l = 0 ∧ (∀ k s, hitCount k s l = 0) ∧ Unreported l := by
  refine ⟨?_, ?_, ?_⟩
  · unfold queryCount
    rw [List.countP_eq_zero]
    intro e he
    rcases h e he with ⟨k, id, rfl⟩ | ⟨k, rfl⟩ | h'
    · simp
    · simp
    · cases e <;> first | exact absurd trivial h' | simp
  · induction l with
    | nil => intro k s; rfl
    | cons e l ih =>
      intro k s
      have ih := ih (fun x hx => h x (by simp [hx]))
      rcases h e (by simp) with ⟨k, id, rfl⟩ | ⟨k, rfl⟩ | h'
      · exact ih _ _
      · exact ih _ _
      · cases e <;> first | exact absurd trivial h' | exact ih _ _
  · intro e he
    rcases h e he with ⟨k, id, rfl⟩ | ⟨k, rfl⟩ | h'
    · simp
    · simp
    · cases e <;> first | exact absurd trivial h' | simp

theorem quiet_last {l : List Event} (h : ∀ e ∈ l, ¬ TopEv e) : ∀ s, lastAsk s l = s := by
  induction l with
  | nil => intro s; rfl
  | cons e l ih =>
    intro s
    have ih := ih (fun x hx => h x (by simp [hx]))
    have h' := h e (by simp)
    cases e <;> first | exact absurd trivial h' | exact ih _

theorem queryCount_append (a b : List Event) : queryCount (a ++ b) = queryCount a + queryCount b := List.countP_append

theorem unrep_append {a b : List Event} (ha : Unreported a) (hb : Unreported b) : Unreported (a ++ b) := by
  intro e he
  rcases List.mem_append.1 he with he | he
  · exact ha e he
  · exact hb e he

/-- Computations that add no events of the chain, nor of the report. -/
abbrev Silent {α : Type} (m : M α) : Prop := Mute TopEv m

theorem silent_closed (env : LEnv) : Closed False env @Silent := mute_closed (fun _ h => Or.inl h) env

theorem silent_netOps : NetOps @Silent := mute_netOps (fun _ h => h)

/-! ### One query -/

/-- Hits of a sub-store. -/
def hitsAt {σ : Type} (subs : List (Sub σ)) (m : Nat) : Option (Option Nat) := (subs[m]?).map (·.hits)

def count (h : Option Nat) : Option Nat := h.map (fun h => (h + 1) % 2 ^ 32)

/-- What one pass over the stores from `i` on does to the hits. -/
def Passed {σ : Type} (i : Nat) (subs : List (Sub σ)) (r : Option Nat) (subs' : List (Sub σ)) (l : List Event) : Prop :=
  subs'.length = subs.length ∧
  ((∃ n j, r = some (n + 1) ∧ (∀ s, lastAsk s l = some (i + j)) ∧ ∀ m, hitsAt subs' m = if m = j then (hitsAt subs m).map count else hitsAt subs m) ∨
    ((∀ n, r ≠ some (n + 1)) ∧ ∀ m, hitsAt subs' m = hitsAt subs m))

theorem Passed.cons {σ : Type} {i : Nat} {subs subs' : List (Sub σ)} {r : Option Nat} {l pre : List Event} {x y : Sub σ}
    (h : Passed (i + 1) subs r subs' l) (hxy : y.hits = x.hits) : Passed i (x :: subs) r (y :: subs') (pre ++ l) := by
  obtain ⟨h1, h2⟩ := h
  refine ⟨by simp [h1], ?_⟩
  rcases h2 with ⟨n, j, e, h3, h4⟩ | ⟨e, h4⟩
  · refine Or.inl ⟨n, j + 1, e, fun s => ?_, fun m => ?_⟩
    · rw [lastAsk_append, h3]
      congr 1
      omega
    · cases m with
      | zero => simp [hitsAt, hxy]
      | succ m => simpa [hitsAt] using h4 m
  · refine Or.inr ⟨e, fun m => ?_⟩
    cases m with
    | zero => simp [hitsAt, hxy]
    | succ m => simpa [hitsAt] using h4 m

theorem wp_chainLoop_hits {τ σ : Type} {get : τ → σ → Id → Bytes → M (Option Nat × τ × σ × Bytes)} (hget : ∀ t s id out, Silent (get t s id out)) (id : Id) :
    ∀ (subs : List (Sub σ)) (i : Nat) (t : τ) (out : Bytes) (w : World),
    wp (chainLoop get id i t subs out) (fun a w' => ∃ l, w'.log = w.log ++ l ∧ (∀ e ∈ l, Still e) ∧ Passed i subs a.1 a.2.2.1 l)
      (fun _ w' => ∃ l, w'.log = w.log ++ l ∧ ∀ e ∈ l, Still e) w
  | [], i, t, out, w => by
    unfold chainLoop
    exact wp_pure ⟨[], by simp, by simp, rfl, Or.inr ⟨by simp, fun m => rfl⟩⟩
  | x :: subs, i, t, out, w => by
    have rest : ∀ (t : τ) (out : Bytes) (w1 : World) (y : Sub σ) (pre : List Event), w1.log = w.log ++ pre → (∀ e ∈ pre, Still e) → y.hits = x.hits →
        wp (chainLoop get id (i + 1) t subs out >>= fun r => (pure (r.1, r.2.1, y :: r.2.2.1, r.2.2.2) : M _))
          (fun a w' => ∃ l, w'.log = w.log ++ l ∧ (∀ e ∈ l, Still e) ∧ Passed i (x :: subs) a.1 a.2.2.1 l)
          (fun _ w' => ∃ l, w'.log = w.log ++ l ∧ ∀ e ∈ l, Still e) w1 := by
      intro t out w1 y pre hp hs hy
      have app : ∀ {l : List Event}, (∀ e ∈ l, Still e) → ∀ e ∈ pre ++ l, Still e := by
        intro l hl e he
        rcases List.mem_append.1 he with he | he
        · exact hs e he
        · exact hl e he
      refine wp_bind (wp_mono (wp_chainLoop_hits hget id subs (i + 1) t out w1) ?_ ?_)
      · rintro ⟨r, t', subs', out'⟩ w2 ⟨l, h1, h2, h3⟩
        exact wp_pure ⟨pre ++ l, by rw [h1, hp, List.append_assoc], app h2, h3.cons hy⟩
      · rintro s w2 ⟨l, h1, h2⟩
        exact ⟨pre ++ l, by rw [h1, hp, List.append_assoc], app h2⟩
    unfold chainLoop
    split
    · exact rest t out w x [] (by simp) (by simp) rfl
    · refine wp_bind (wp_emit (wp_bind (wp_mute (hget _ _ _ _) ?_ ?_)))
      · rintro ⟨r, t', s', out'⟩ w2 q e1 hq
        have hl : w2.log = w.log ++ (.ask i id :: q) := by rw [e1]; simp
        have hs : ∀ e ∈ (.ask i id :: q), Still e := by
          intro e he
          rcases List.mem_cons.1 he with he | he
          · exact Or.inl ⟨i, id, he⟩
          · exact Or.inr (Or.inr (hq e he))
        rcases r with _ | _ | n
        · refine wp_bind (wp_emit ?_)
          refine rest t' out' _ { x with s := s', active := false } ((.ask i id :: q) ++ [.failed i]) (by simp [hl]) (fun e he => ?_) rfl
          rcases List.mem_append.1 he with he | he
          · exact hs e he
          · simp only [List.mem_singleton] at he
            exact Or.inr (Or.inl ⟨i, he⟩)
        · exact rest t' out' w2 { x with s := s' } (.ask i id :: q) hl hs rfl
        · refine wp_pure ⟨.ask i id :: q, hl, hs, rfl, Or.inl ⟨n, 0, rfl, fun s => ?_, fun m => ?_⟩⟩
          · exact quiet_last hq _
          · cases m with
            | zero => rfl
            | succ m => simp [hitsAt]
      · intro s w2 q e1 hq
        refine ⟨.ask i id :: q, by rw [e1]; simp, fun e he => ?_⟩
        rcases List.mem_cons.1 he with he | he
        · exact Or.inl ⟨i, id, he⟩
        · exact Or.inr (Or.inr (hq e he))

/-! ### The chain over a run -/

/-- Nothing has been reported. -/
def TellFree (w0 w : World) : Prop := ∃ evs, w.log = w0.log ++ evs ∧ Unreported evs

/-- The counters are right. -/
def HitInv (n m : Nat) (w0 : World) (c : Chain Store) (w : World) : Prop :=
  c.subs.length = n ∧ ∃ evs, w.log = w0.log ++ evs ∧ Unreported evs ∧ c.queries = queryCount evs % 2 ^ 32 ∧
    ∀ k < n, hitsAt c.subs k = some (if k < m then some (hitCount k none evs % 2 ^ 32) else none)

theorem TellFree.quiet {w0 w w' : World} (h : TellFree w0 w) {q : List Event} (hl : w'.log = w.log ++ q) (hq : ∀ e ∈ q, ¬ TopEv e) : TellFree w0 w' := by
  obtain ⟨evs, h1, h2⟩ := h
  exact ⟨evs ++ q, by rw [hl, h1, List.append_assoc], unrep_append h2 (still_count (fun e he => Or.inr (Or.inr (hq e he)))).2.2⟩

theorem HitInv.free {n m : Nat} {w0 w : World} {c : Chain Store} (h : HitInv n m w0 c w) : TellFree w0 w := by
  obtain ⟨_, evs, h1, h2, _⟩ := h
  exact ⟨evs, h1, h2⟩

theorem HitInv.quiet {n m : Nat} {w0 w w' : World} {c : Chain Store} (h : HitInv n m w0 c w) {q : List Event} (hl : w'.log = w.log ++ q)
    (hq : ∀ e ∈ q, ¬ TopEv e) : HitInv n m w0 c w' := by
  obtain ⟨h0, evs, h1, h2, h3, h4⟩ := h
  obtain ⟨c1, c2, c3⟩ := still_count (fun e he => Or.inr (Or.inr (hq e he)))
  refine ⟨h0, evs ++ q, by rw [hl, h1, List.append_assoc], unrep_append h2 c3, by rw [queryCount_append, c1, h3]; rfl, fun k hk => ?_⟩
  rw [hitCount_append, c2]
  exact h4 k hk

theorem wp_chainGet_hits {n m : Nat} {w0 : World} (env : Env) (t : Tgt) (c : Chain Store) (id : Id) (out : Bytes) {w : World} (h : HitInv n m w0 c w) :
    wp (chainGet (storeGet env) t c id out) (fun a w' => HitInv n m w0 a.2.2.1 w') (fun _ w' => TellFree w0 w') w := by
  obtain ⟨h0, evs, h1, h2, h3, h4⟩ := h
  unfold chainGet
  refine wp_bind (wp_emit (wp_bind (wp_mono (wp_chainLoop_hits (fun t s id out => (silent_closed env.toLEnv).storeGet silent_netOps env rfl t s id out) id c.subs 0 t out _) ?_ ?_)))
  · rintro ⟨r, t', subs', out'⟩ w' ⟨l, l1, l2, l3, l4⟩
    obtain ⟨c1, c2, c3⟩ := still_count l2
    have hq : Unreported [Event.query id] := by intro e he; simp only [List.mem_singleton] at he; subst he; simp
    have ha : Unreported [Event.answer id r] := by intro e he; simp only [List.mem_singleton] at he; subst he; simp
    have hone : ∀ id, queryCount [Event.query id] = 1 := fun _ => rfl
    have hzero : queryCount [Event.answer id r] = 0 := rfl
    refine wp_bind (wp_emit (wp_pure ⟨l3.trans h0, evs ++ [.query id] ++ l ++ [.answer id r], by simp [l1, h1], unrep_append (unrep_append (unrep_append h2 hq) c3) ha, ?_, ?_⟩))
    · simp only [queryCount_append, c1, hone, hzero, h3]
      omega
    · intro k hk
      have hk' := h4 k hk
      have e : hitCount k none (evs ++ [.query id] ++ l ++ [.answer id r]) = hitCount k none evs + hitCount k (lastAsk none l) [.answer id r] := by
        rw [hitCount_append, hitCount_append, hitCount_append, c2, lastAsk_append, lastAsk_append]
        simp only [hitCount, lastAsk]
        omega
      rw [e]
      rcases l4 with ⟨r', j, rfl, lj, lh⟩ | ⟨lr, lh⟩
      · rw [lh k, lj, hk']
        simp only [hitCount, Nat.zero_add, Option.some.injEq, Nat.add_zero]
        by_cases hkj : k = j
        · subst hkj
          simp only [if_true, Option.map_some]
          split
          · simp only [count, Option.map_some, Option.some.injEq]
            omega
          · rfl
        · have : ¬ j = k := fun hh => hkj hh.symm
          simp only [hkj, this, if_false, Nat.add_zero]
      · rw [lh k, hk']
        rcases r with _ | _ | r
        · rfl
        · rfl
        · exact absurd rfl (lr r)
  · rintro s w' ⟨l, l1, l2⟩
    have hq : Unreported [Event.query id] := by intro e he; simp only [List.mem_singleton] at he; subst he; simp
    exact ⟨evs ++ [.query id] ++ l, by simp [l1, h1], unrep_append (unrep_append h2 hq) (still_count l2).2.2⟩

local macro "hits_fetch" h:ident wr:ident : tactic => `(tactic|
  (split
   · refine wp_bind (wp_mono (wp_chainGet_hits _ _ _ _ _ $h) ?_ (fun _ _ h => h))
     rintro ⟨r, t, ch, buf⟩ w' h'
     dsimp only
     split
     · exact wp_bind (wp_pure ($wr _ _ h'))
     · exact wp_bind (wp_pure (wp_pure h'))
   · exact wp_bind (wp_pure ($wr _ _ $h))))

theorem wp_entryCb_hits {n m : Nat} {w0 : World} (env : Env) (c : Cb) (e : Seg) {w : World} (h : HitInv n m w0 c.chain w) :
    wp (entryCb env c e) (fun a w' => HitInv n m w0 a.2.chain w') (fun _ w' => TellFree w0 w') w := by
  have wr : ∀ (c : Cb) (w : World), HitInv n m w0 c.chain w →
      wp (targetWrite env.lib c.tgt c.buf e.len e.off e.id >>= fun x => match x with
        | (ok, tgt) => (pure (ok, { c with tgt := tgt }) : M (Bool × Cb))) (fun a w' => HitInv n m w0 a.2.chain w') (fun _ w' => TellFree w0 w') w := by
    intro c w h
    refine wp_bind (wp_mute (Mute.targetWrite (fun _ h => Or.inl h) _ _ _ _ _ _) ?_ ?_)
    · rintro ⟨ok, t⟩ w' q e1 hq
      exact wp_pure (h.quiet e1 hq)
    · intro s w' q e1 hq
      exact h.free.quiet e1 hq
  unfold entryCb
  dsimp only
  split
  · split
    · exact wp_pure h
    · refine wp_bind (wp_mute ((silent_closed env.toLEnv).targetCheck env _ _ _ _ _) ?_ ?_)
      · rintro ⟨r, t, buf⟩ w' q e1 hq
        dsimp only
        split
        · exact wp_pure (h.quiet e1 hq)
        · have h := h.quiet e1 hq
          hits_fetch h wr
      · intro s w' q e1 hq
        exact h.free.quiet e1 hq
  · hits_fetch h wr

theorem wp_iterLoop_hits {n m : Nat} {w0 : World} (env : Env) (ino : Nat) (p : Params) : ∀ (rem pos last : Nat) (c : Cb) (w : World), HitInv n m w0 c.chain w →
    wp (iterLoop ino p (entryCb env) rem pos last c) (fun a w' => HitInv n m w0 a.2.chain w') (fun _ w' => TellFree w0 w') w
  | 0, pos, last, c, w, h => by
    unfold iterLoop
    exact h
  | rem + 1, pos, last, c, w, h => by
    unfold iterLoop
    refine wp_bind (wp_mute ((silent_closed env.toLEnv).readall _ _ _) ?_ ?_)
    · rintro ⟨ok, buf⟩ w1 q1 e1 hq1
      have h := h.quiet e1 hq1
      cases ok with
      | false => exact wp_pure h
      | true =>
        refine wp_bind (wp_mute (Mute.ld64le (T := TopEv) _ _) ?_ (fun s w' q e1 hq => h.free.quiet e1 hq))
        intro off w2 q2 e2 hq2
        have h := h.quiet e2 hq2
        refine wp_bind (wp_mute (Mute.ldBytes (T := TopEv) _ _ _) ?_ (fun s w' q e1 hq => h.free.quiet e1 hq))
        intro id w3 q3 e3 hq3
        have h := h.quiet e3 hq3
        dsimp only
        split
        · exact wp_iterLoop_hits env ino p rem _ _ c w3 h
        · refine wp_bind (wp_mono (wp_entryCb_hits env c _ h) ?_ (fun _ _ h => h))
          rintro ⟨ok, c'⟩ w4 h
          cases ok with
          | false => exact wp_pure h
          | true => exact wp_iterLoop_hits env ino p rem _ _ c' w4 h
    · intro s w' q e1 hq
      exact h.free.quiet e1 hq

/-! ### Setting up -/

/-- A chain in which nothing has been counted. -/
def Uncounted (m : Nat) (c : Chain Store) : Prop :=
  c.zeroed = m ∧ c.queries = 0 ∧ ∀ k < c.subs.length, hitsAt c.subs k = some (if k < m then some 0 else none)

theorem Uncounted.snoc {m : Nat} {c : Chain Store} (h : Uncounted m c) (s : Store) (sp : Nat) :
    Uncounted m { c with subs := c.subs ++ [⟨s, true, if c.subs.length < c.zeroed then some 0 else none⟩], space := sp } := by
  obtain ⟨h1, h2, h3⟩ := h
  refine ⟨h1, h2, fun k hk => ?_⟩
  simp only [List.length_append, List.length_cons, List.length_nil] at hk
  simp only [hitsAt]
  by_cases hlt : k < c.subs.length
  · rw [List.getElem?_append_left hlt]
    exact h3 k hlt
  · have : k = c.subs.length := by omega
    subst this
    rw [List.getElem?_append_right (Nat.le_refl _), h1]
    simp

theorem wp_appendStore_uncounted {m : Nat} (env : Env) (tpath : Bytes) (n : Nat) (p : Params) (t : Tgt) (c : Chain Store) (arg : Bytes) {w : World} (h : Uncounted m c) :
    wp (appendStore env tpath n p t c arg) (fun a _ => Uncounted m a.2.2) (fun _ _ => True) w := by
  unfold appendStore
  refine wp_bind (wp_true _ (fun a w1 => ?_))
  cases a with
  | none => exact wp_pure h
  | some x =>
    obtain ⟨s, t⟩ := x
    refine wp_bind ?_
    unfold chainAppend
    dsimp only
    split
    · refine wp_bind (wp_true _ (fun b w2 => ?_))
      cases b with
      | false => exact wp_bind (wp_pure (wp_pure (wp_pure h)))
      | true =>
        refine wp_bind (wp_pure ?_)
        dsimp only
        split
        · trivial
        · exact wp_pure (wp_pure (h.snoc s _))
    · refine wp_bind (wp_pure ?_)
      dsimp only
      split
      · trivial
      · exact wp_pure (wp_pure (h.snoc s _))

theorem wp_appendAll_uncounted {m : Nat} (env : Env) (tpath : Bytes) (n : Nat) (p : Params) : ∀ (args : List Bytes) (t : Tgt) (c : Chain Store) (w : World), Uncounted m c →
    wp (appendAll env tpath n p t c args) (fun a _ => Uncounted m a.2.2) (fun _ _ => True) w
  | [], t, c, w, h => by
    unfold appendAll
    exact wp_pure h
  | a :: as, t, c, w, h => by
    unfold appendAll
    refine wp_bind (wp_mono (wp_appendStore_uncounted env tpath n p t c a h) ?_ (fun _ _ h => h))
    rintro ⟨ok, t', c'⟩ w' h'
    cases ok with
    | false => exact wp_pure h'
    | true => exact wp_appendAll_uncounted env tpath n p as t' c' w' h'

theorem wp_casyncOpts_uncounted {m : Nat} (env : Env) (tpath : Bytes) (n : Nat) (p : Params) : ∀ (os : List Opt) (t : Tgt) (c : Chain Store) (w : World), Uncounted m c →
    wp (casyncOpts env tpath n p t c os) (fun a _ => ∀ t' c', a = .done t' c' → Uncounted m c') (fun _ _ => True) w
  | [], t, c, w, h => by
    unfold casyncOpts
    exact wp_pure (by rintro t' c' e; cases e; exact h)
  | .help :: _, t, c, w, h => by
    unfold casyncOpts
    exact wp_pure (by rintro t' c' e; cases e)
  | .store a :: os, t, c, w, h => by
    unfold casyncOpts
    refine wp_bind (wp_mono (wp_appendStore_uncounted env tpath n p t c a h) ?_ (fun _ _ h => h))
    rintro ⟨ok, t', c'⟩ w' h'
    cases ok with
    | false => exact wp_pure (by rintro t' c' e; cases e)
    | true => exact wp_casyncOpts_uncounted env tpath n p os t' c' w' h'
  | .seedOutput _ :: os, t, c, w, h => by
    unfold casyncOpts
    exact wp_casyncOpts_uncounted env tpath n p os t c w h
  | .bad :: _, t, c, w, h => by
    unfold casyncOpts
    trivial

theorem wp_chainNew_uncounted (k : Nat) (hk : k ≠ 0) (w : World) : wp (chainNew Store k) (fun a _ => ∀ c, a = some c → Uncounted k c) (fun _ _ => True) w := by
  unfold chainNew
  refine wp_bind (wp_true _ (fun b _ => ?_))
  split
  · exact wp_bind (wp_pure (wp_pure (by simp)))
  · refine wp_bind (wp_true _ (fun b _ => ?_))
    split
    · exact wp_bind (wp_pure (wp_pure (by simp)))
    · refine wp_bind (wp_pure (wp_pure ?_))
      rintro c e
      cases e
      exact ⟨by simp [hk], rfl, fun k hk => by simp at hk⟩

theorem wp_csn_uncounted (env : Env) (args : List Bytes) (w : World) :
    wp (csn env args) (fun a _ => ∀ s, a = some s → Uncounted (args.length - 1) s.chain) (fun _ _ => True) w := by
  unfold csn
  split
  · next ipath tpath s ss =>
    have hl : (ipath :: tpath :: s :: ss).length + 1 - 3 + 1 = (ipath :: tpath :: s :: ss).length - 1 := by simp only [List.length_cons]; omega
    rw [hl]
    split
    · exact wp_pure (by simp)
    · refine wp_bind (wp_true _ (fun a _ => ?_))
      split
      · exact wp_pure (by simp)
      · refine wp_bind (wp_mono (wp_chainNew_uncounted _ (by simp) _) ?_ (fun _ _ h => h))
        intro a w1 ha
        split
        · exact wp_pure (by simp)
        · next c =>
          refine wp_bind (wp_mono (wp_appendAll_uncounted _ _ _ _ _ _ _ _ (ha c rfl)) ?_ (fun _ _ h => h))
          rintro ⟨ok, t', c'⟩ w' h'
          cases ok with
          | false => exact wp_pure (by simp)
          | true =>
            refine wp_pure ?_
            rintro s e; cases e; exact h'
  · exact wp_pure (by simp)

theorem wp_casync_uncounted (env : Env) (posix : Bool) (args : List Bytes) (w : World) :
    wp (casync env posix args) (fun a _ => ∀ s, a = some (.ready s) → Uncounted ((args.length - 3) / 2 + 1) s.chain) (fun _ _ => True) w := by
  unfold casync
  dsimp only
  split
  · trivial
  · refine wp_bind (wp_true _ (fun a _ => ?_))
    split
    · exact wp_pure (by simp)
    · rw [show (args.length + 1 - 4) / 2 + 1 = (args.length - 3) / 2 + 1 by omega]
      refine wp_bind (wp_mono (wp_chainNew_uncounted _ (by simp) _) ?_ (fun _ _ h => h))
      intro a w1 ha
      split
      · exact wp_pure (by simp)
      · next c =>
        refine wp_bind (wp_mono (wp_casyncOpts_uncounted _ _ _ _ _ _ _ _ (ha c rfl)) ?_ (fun _ _ h => h))
        intro a w2 h'
        split
        · exact wp_pure (by simp)
        · exact wp_pure (by simp)
        · split
          · trivial
          · next t' c' _ =>
            refine wp_pure ?_
            rintro s e; cases e; exact h' _ _ rfl

/-! ### Whole runs -/

/-- The report, or none. -/
def StatsEnd (n m : Nat) (w0 : World) (r : Res Bool) (w : World) : Prop :=
  (r = .ok true → ∃ evs, w.log = w0.log ++ evs ∧ Reported n m evs) ∧ (r ≠ .ok true → r ≠ .stop .ub → TellFree w0 w)

theorem freeAll_same : ∀ (subs : List (Sub Store)) {Q : Unit → World → Prop} {S : Stop → World → Prop} {w : World}, Q () w → S .ub w → wp (freeAll subs) Q S w
  | [], Q, S, w, hok, _ => by
    unfold freeAll
    exact wp_pure hok
  | s :: r, Q, S, w, hok, hub => by
    unfold freeAll
    cases hs : s.s with
    | loc l =>
      simp only
      unfold localFree
      cases hl : l.idx with
      | freed => exact wp_bind (wp_stop hub)
      | live i => exact wp_bind (wp_pure (freeAll_same r hok hub))
      | null => exact wp_bind (wp_pure (freeAll_same r hok hub))
    | http h => exact wp_bind (wp_pure (freeAll_same r hok hub))
    | target => exact wp_bind (wp_pure (freeAll_same r hok hub))

theorem TellFree.fail {n m : Nat} {w0 w : World} (h : TellFree w0 w) : StatsEnd n m w0 (.ok false) w := ⟨by simp, fun _ _ => h⟩
theorem TellFree.stop {n m : Nat} {w0 w : World} {s : Stop} (h : TellFree w0 w) : StatsEnd n m w0 (.stop s) w := ⟨by simp, fun _ _ => h⟩

/-- The end of a synchronisation that succeeded. -/
theorem wp_finish_stats {n m : Nat} {w0 : World} (c : Cb) {w : World} (h : HitInv n m w0 c.chain w) :
    wp (finish c) (fun b w' => StatsEnd n m w0 (.ok b) w') (fun s w' => StatsEnd n m w0 (.stop s) w') w := by
  obtain ⟨h0, evs, h1, h2, h3, h4⟩ := h
  have key : ∀ w1, w1.log = w.log ++ (if c.skipped = 0 then [] else [.skipped c.skipped]) →
      wp (do M.emit (.stats c.chain.queries (c.chain.subs.map (·.hits))); freeAll c.chain.subs; return true)
        (fun b w' => StatsEnd n m w0 (.ok b) w') (fun s w' => StatsEnd n m w0 (.stop s) w') w1 := by
    intro w1 hw1
    refine wp_bind (wp_emit (wp_bind (freeAll_same _ (wp_pure ⟨fun _ => ⟨_, ?_, evs, c.skipped, c.chain.subs.map (·.hits), rfl, h2, by simp [h0], fun k hk => ?_⟩, by simp⟩) ⟨by simp, by simp⟩)))
    · simp [hw1, h1, h3]
    · have := h4 k hk
      simpa [hitsAt] using this
  unfold finish reportSkipped
  split
  · next hs => exact wp_bind (wp_pure (key w (by simp [hs])))
  · next hs => exact wp_bind (wp_emit (key _ (by simp [hs])))

theorem wp_sync_stats (env : Env) (s : Setup) {m : Nat} {w0 w : World} {evs : List Event} (hw : w.log = w0.log ++ evs) (hq : ∀ e ∈ evs, ¬ TopEv e) (hu : Uncounted m s.chain) :
    wp (sync env s) (fun b w' => StatsEnd s.chain.subs.length m w0 (.ok b) w') (fun x w' => StatsEnd s.chain.subs.length m w0 (.stop x) w') w := by
  have h : HitInv s.chain.subs.length m w0 s.chain w := by
    obtain ⟨u1, u2, u3⟩ := hu
    obtain ⟨c1, c2, c3⟩ := still_count (fun e he => Or.inr (Or.inr (hq e he)))
    refine ⟨rfl, evs, hw, c3, by rw [c1, u2], fun k hk => ?_⟩
    rw [c2]
    exact u3 k hk
  unfold sync caibxIterate
  dsimp only
  refine wp_bind (wp_bind (wp_mute ((silent_closed env.toLEnv).lseek _) ?_ (fun s w' q e1 hq => (h.free.quiet e1 hq).stop)))
  intro ok w1 q1 e1 hq1
  have h := h.quiet e1 hq1
  cases ok with
  | false => exact wp_pure (wp_pure h.free.fail)
  | true =>
    refine wp_mono (wp_iterLoop_hits env _ _ _ _ _ _ _ h) ?_ (fun _ _ h => h.stop)
    rintro ⟨ok, c⟩ w2 h
    cases ok with
    | false => exact wp_pure h.free.fail
    | true => exact wp_finish_stats c h

/-- The number of stores whose hit counter starts at 0. -/
def slotCount (argv0 : Bytes) (args : List Bytes) : Nat :=
  if streq (posixBasename argv0) (str "csn") then args.length - 1 else (args.length - 3) / 2 + 1

/-- Every run of csn and casync. -/
theorem wp_appMain_stats (env : Env) (posix : Bool) (argv0 : Bytes) (args : List Bytes) (w : World) :
    wp (appMain env posix argv0 args) (fun b w' => StatsEnd (storeCount posix argv0 args) (slotCount argv0 args) w (.ok b) w')
      (fun s w' => StatsEnd (storeCount posix argv0 args) (slotCount argv0 args) w (.stop s) w') w := by
  have quiet : ∀ {w' : World} {q : List Event}, w'.log = w.log ++ q → (∀ e ∈ q, ¬ TopEv e) → TellFree w w' :=
    fun {w' q} e1 hq => ⟨q, e1, (still_count (fun e he => Or.inr (Or.inr (hq e he)))).2.2⟩
  unfold appMain
  dsimp only
  split
  · next hname =>
    unfold csnMain
    refine wp_bind (wp_mono (wp_and (wp_and (wp_csn_active env args w) (wp_csn_uncounted env args w)) (wp_mute ((silent_closed env.toLEnv).csn env rfl args)
      (Q := fun _ w' => ∃ q, w'.log = w.log ++ q ∧ ∀ e ∈ q, ¬ TopEv e) (S := fun _ w' => ∃ q, w'.log = w.log ++ q ∧ ∀ e ∈ q, ¬ TopEv e)
      (fun _ _ q e h => ⟨q, e, h⟩) (fun _ _ q e h => ⟨q, e, h⟩))) ?_ ?_)
    · rintro a w1 ⟨⟨ha, hu⟩, q, e1, hq⟩
      cases a with
      | none => exact wp_pure (quiet e1 hq).fail
      | some s =>
        obtain ⟨h1, h2⟩ := ha s rfl
        have hc : s.chain.subs.length = storeCount posix argv0 args := by rw [h2 rfl, storeCount, if_pos hname]
        rw [← hc, slotCount, if_pos hname]
        exact wp_sync_stats env s e1 hq (hu s rfl)
    · rintro s w1 ⟨_, q, e1, hq⟩
      exact (quiet e1 hq).stop
  · next hname =>
    split
    · unfold casyncMain
      refine wp_bind (wp_mono (wp_and (wp_and (wp_casync_active env posix args w) (wp_casync_uncounted env posix args w)) (wp_mute ((silent_closed env.toLEnv).casync env rfl posix args)
        (Q := fun _ w' => ∃ q, w'.log = w.log ++ q ∧ ∀ e ∈ q, ¬ TopEv e) (S := fun _ w' => ∃ q, w'.log = w.log ++ q ∧ ∀ e ∈ q, ¬ TopEv e)
        (fun _ _ q e h => ⟨q, e, h⟩) (fun _ _ q e h => ⟨q, e, h⟩))) ?_ ?_)
      · rintro a w1 ⟨⟨ha, hu⟩, q, e1, hq⟩
        split
        · exact wp_pure (quiet e1 hq).fail
        · next s =>
          obtain ⟨h1, h2⟩ := ha s rfl
          have hc : s.chain.subs.length = storeCount posix argv0 args := by rw [h2 rfl, storeCount, if_neg hname]
          rw [← hc, slotCount, if_neg hname]
          exact wp_sync_stats env s e1 hq (hu s rfl)
        · next iino p n t =>
          have hns : wp (syncNoStore env iino p n t) (fun b _ => b = false) (fun _ _ => True) w1 := by
            unfold syncNoStore
            refine wp_bind (wp_true _ (fun a _ => ?_))
            split
            · exact wp_pure rfl
            · trivial
          refine wp_mono (wp_and hns (wp_mute ((silent_closed env.toLEnv).syncNoStore env _ _ _ _)
            (Q := fun _ w' => TellFree w w') (S := fun _ w' => TellFree w w') ?_ ?_)) ?_ ?_
          · intro _ w2 q2 e2 hq2
            exact (quiet e1 hq).quiet e2 hq2
          · intro _ w2 q2 e2 hq2
            exact (quiet e1 hq).quiet e2 hq2
          · rintro b w2 ⟨rfl, h⟩
            exact h.fail
          · rintro s w2 ⟨_, h⟩
            exact h.stop
      · rintro s w1 ⟨_, q, e1, hq⟩
        exact (quiet e1 hq).stop
    · exact wp_pure (quiet (q := []) (by simp) (by simp)).fail

/-! ### Skipped regions -/

/-- What a run that succeeds reports as skipped. -/
theorem run_told {env : Env} {w : World} {ipath tpath : Bytes} {stores : List Bytes} (hsc : Scene env w ipath tpath stores) :
    wp (csnMain env (ipath :: tpath :: stores))
      (fun r w' => r = true → ∃ tino segs, Begun w ipath tpath tino segs ∧ ∃ pre post, Shape env.H env.bufMax (Regular segs) tino w segs pre post [] 0 [] w' ∧
        ∃ evs, Told (w.log ++ evs) pre.length w')
      (fun _ _ => True) w := by
  unfold csnMain
  refine wp_bind (wp_mono (wp_csn hsc) ?_ (fun _ _ _ => trivial))
  intro r w1 h
  obtain ⟨h1, h2⟩ := h
  cases r with
  | none => exact wp_pure (by simp)
  | some s =>
    simp only at h2 ⊢
    have hb := h2.begun
    have hso := Describes.segsOk hb.idx
    generalize hg : delivered 0 (tableEntries (w.data s.iino) s.n) = segs at hb hso
    have hok : (anyRun env s.tgt.ino w segs (SideWrong env.H w tpath stores)).Ok := anyRun_ok hsc.lib hsc.sane hso
    refine wp_sync (G := anyRun env s.tgt.ino w segs (SideWrong env.H w tpath stores)) hok hsc h2 rfl hg.symm ⟨subsInv_start hsc h2, h2.marked hsc⟩ (fun _ h => h.elim)
      (F := True) (fun _ _ _ _ _ => trivial) ?_ ?_ ?_
    · intro w' pre post e hs _ ht _
      exact ⟨_, segs, hb, pre, post, hs, ht⟩
    · intro w' _ _ hf
      cases hf
    · intro st w' _ _
      trivial

end Csn.Proof
