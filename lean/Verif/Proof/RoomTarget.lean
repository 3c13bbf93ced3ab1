import Verif.Proof.Room
import Verif.Proof.Turns
/-
The memory for the index of the target.
-/
namespace Csn.Proof
open Csn Spec Props

/-- Whatever the circumstances, `m` ends with a result that is `P`, or does not end normally. -/
def Yields {α : Type} (m : M α) (P : α → Prop) : Prop := ∀ w, wp m (fun a _ => P a) (fun _ _ => True) w

namespace Yields
variable {α β : Type} {m : M α} {f : α → M β} {P P' : α → Prop} {R : β → Prop}

theorem pure' {a : α} (h : P a) : Yields (Pure.pure a : M α) P := fun _ => wp_pure h

theorem stop (s : Stop) : Yields (M.stop s : M α) P := fun _ => wp_stop trivial

theorem bind' (hm : Yields m P) (hf : ∀ a, P a → Yields (f a) R) : Yields (m >>= f) R :=
  fun w => wp_bind (wp_mono (hm w) (fun a w' h => hf a h w') (fun _ _ h => h))

theorem any (hf : ∀ a, Yields (f a) R) : Yields (m >>= f) R :=
  fun _ => wp_bind (wp_true m (fun a w' => hf a w'))

theorem ite {c : Prop} [Decidable c] {a b : M α} (ha : Yields a P) (hb : Yields b P) : Yields (if c then a else b) P := by
  split
  · exact ha
  · exact hb

theorem mono (hm : Yields m P) (h : ∀ a, P a → P' a) : Yields m P' :=
  fun w => wp_mono (hm w) (fun a _ ha => h a ha) (fun _ _ h => h)

end Yields

/-- An iteration over the entries of an index file, with a state that is `P k` if `k` entries are left. -/
theorem yields_iterLoop {σ : Type} {P : Nat → σ → Prop} {cb : σ → Seg → M (Bool × σ)} {ino : Nat} {p : Params}
    (hcb : ∀ k s seg, P (k + 1) s → Yields (cb s seg) (fun r => P k r.2)) (hle : ∀ k s, P (k + 1) s → P k s) :
    ∀ (rem pos last : Nat) (s : σ), P rem s → Yields (iterLoop ino p cb rem pos last s) (fun r => P 0 r.2)
  | 0, _, _, _, h => fun _ => wp_mpure h
  | rem + 1, pos, last, s, h => by
    have down : ∀ k s, P k s → P 0 s := by
      intro k
      induction k with
      | zero => exact fun _ h => h
      | succ k ih => exact fun s h => ih s (hle k s h)
    unfold iterLoop
    refine Yields.any (fun a => ?_)
    obtain ⟨ok, buf⟩ := a
    cases ok with
    | false => exact Yields.pure' (down _ _ h)
    | true =>
      refine Yields.any (fun offset => Yields.any (fun id => ?_))
      dsimp only
      refine Yields.ite (yields_iterLoop hcb hle rem _ _ s (hle _ _ h)) ?_
      refine Yields.bind' (hcb rem s _ h) (fun a ha => ?_)
      obtain ⟨b, s'⟩ := a
      cases b with
      | false => exact Yields.pure' (down _ _ ha)
      | true => exact yields_iterLoop hcb hle rem _ _ s' ha

theorem yields_caibxIterate {σ : Type} {P : Nat → σ → Prop} {cb : σ → Seg → M (Bool × σ)} {ino : Nat} {p : Params}
    (hcb : ∀ k s seg, P (k + 1) s → Yields (cb s seg) (fun r => P k r.2)) (hle : ∀ k s, P (k + 1) s → P k s) {n : Nat} {s : σ} (h : P n s) :
    Yields (caibxIterate ino p n cb s) (fun r => P 0 r.2) := by
  have down : ∀ k s, P k s → P 0 s := by
    intro k
    induction k with
    | zero => exact fun _ h => h
    | succ k ih => exact fun s h => ih s (hle k s h)
  unfold caibxIterate
  exact Yields.any (fun ok => Yields.ite (Yields.pure' (down _ _ h)) (yields_iterLoop hcb hle _ _ _ _ h))

/-- An index made for `n` entries that has room for `k` more. -/
def Ample (n k : Nat) (idx : Index) : Prop := idx.space = n ∧ idx.cap = 48 * n ∧ idx.entries.length + k ≤ n

theorem Ample.le {n k : Nat} {idx : Index} (h : Ample n (k + 1) idx) : Ample n k idx := ⟨h.1, h.2.1, by have := h.2.2; omega⟩

theorem yields_insert {n k : Nat} {idx : Index} {off len : Nat} {id : Id} (h : Ample n (k + 1) idx) :
    Yields (indexInsert idx off len id) (fun r => Ample n k r.2) := by
  intro w
  unfold wp indexInsert
  generalize hi : indexInsertPure idx off len id w.mem = r
  obtain ⟨r, idx', m⟩ := r
  obtain ⟨h1, _, h3⟩ := insert_room hi
  obtain ⟨g1, g2, g3⟩ := h
  cases r with
  | stop s => trivial
  | ok p =>
    obtain ⟨e1, e2⟩ := h3 (by omega)
    exact ⟨e1.trans g1, e2.trans g2, by simp only; omega⟩

theorem yields_init (n : Nat) : Yields (indexInit n) (fun r => ∀ idx, r = some idx → Ample n n idx) := by
  intro w
  refine wp_indexInit ?_ ?_ ?_
  · intro idx m hi h0 _ _ hs i e
    cases e
    exact ⟨hs, by rw [hi.cap, hs]; omega, by simp [h0]⟩
  · intro m _ _ _ i e
    cases e
  · intro _; trivial

/-- The index of a target that has been made a store for `n` entries has room for `k` more. -/
def TgtRoom (n k : Nat) (t : Tgt) : Prop := t.queryable = true → Ample n k t.idx

theorem query_ample {lib : Lib} (hlib : lib.Conforms) {n k : Nat} {idx : Index} (h : Ample n k idx) (id : Id) : Ample n k (indexQuery lib idx id).2 := by
  unfold indexQuery indexSort
  cases idx.sorted with
  | true => exact h
  | false =>
    refine ⟨h.1, h.2.1, ?_⟩
    simp only [Bool.false_eq_true, if_false, (hlib.perm idx.entries).length_eq]
    exact h.2.2

theorem yields_targetAdd {lib : Lib} (hlib : lib.Conforms) {n k : Nat} {t : Tgt} (h : TgtRoom n (k + 1) t) (len off : Nat) (id : Id) :
    Yields (targetAdd lib t len off id) (TgtRoom n k) := by
  unfold targetAdd
  cases hq : t.queryable with
  | false => exact Yields.pure' (fun e => by rw [hq] at e; cases e)
  | true =>
    simp only [Bool.not_true, Bool.false_eq_true, if_false]
    have h' := query_ample hlib (h hq) id
    generalize indexQuery lib t.idx id = r at h'
    obtain ⟨r, idx⟩ := r
    cases r with
    | some i => exact Yields.pure' (fun _ => h'.le)
    | none => exact Yields.bind' (yields_insert h') (fun a ha => Yields.pure' (fun _ => ha))

theorem TgtRoom.le {n k : Nat} {t : Tgt} (h : TgtRoom n (k + 1) t) : TgtRoom n k t := fun e => (h e).le

theorem yields_targetGet {lib : Lib} (hlib : lib.Conforms) {n k : Nat} {t : Tgt} (h : TgtRoom n k t) (id : Id) (out : Bytes) :
    Yields (targetGet lib t id out) (fun r => TgtRoom n k r.2.1) := by
  unfold targetGet
  cases hq : t.queryable with
  | false => exact Yields.pure' h
  | true =>
    simp only [Bool.not_true, Bool.false_eq_true, if_false]
    have h' := query_ample hlib (h hq) id
    generalize indexQuery lib t.idx id = r at h'
    obtain ⟨r, idx⟩ := r
    cases r with
    | none => exact Yields.pure' (fun _ => h')
    | some i =>
      simp only
      cases idx.entries[i]? with
      | none => exact Yields.stop _
      | some e =>
        refine Yields.ite (Yields.pure' (fun _ => h')) (Yields.any (fun a => ?_))
        exact Yields.ite (Yields.pure' (fun _ => h')) (Yields.pure' (fun _ => h'))

theorem yields_chainLoop {σ : Type} {n k : Nat} {get : Tgt → σ → Id → Bytes → M (Option Nat × Tgt × σ × Bytes)}
    (hget : ∀ t s id out, TgtRoom n k t → Yields (get t s id out) (fun r => TgtRoom n k r.2.1)) (id : Id) :
    ∀ (subs : List (Sub σ)) (i : Nat) (t : Tgt) (out : Bytes), TgtRoom n k t → Yields (chainLoop get id i t subs out) (fun r => TgtRoom n k r.2.1)
  | [], _, _, _, h => by unfold chainLoop; exact Yields.pure' h
  | sub :: subs, i, t, out, h => by
    unfold chainLoop
    refine Yields.ite (Yields.bind' (yields_chainLoop hget id subs _ t out h) (fun a ha => Yields.pure' ha)) ?_
    refine Yields.any (fun _ => Yields.bind' (hget t sub.s id out h) (fun a ha => ?_))
    obtain ⟨r, t', s, out'⟩ := a
    cases r with
    | none => exact Yields.any (fun _ => Yields.bind' (yields_chainLoop hget id subs _ t' out' ha) (fun a ha => Yields.pure' ha))
    | some m =>
      cases m with
      | zero => exact Yields.bind' (yields_chainLoop hget id subs _ t' out' ha) (fun a ha => Yields.pure' ha)
      | succ m => exact Yields.pure' ha

theorem yields_storeGet {env : Env} (hlib : env.lib.Conforms) {n k : Nat} (t : Tgt) (s : Store) (id : Id) (out : Bytes) (h : TgtRoom n k t) :
    Yields (storeGet env t s id out) (fun r => TgtRoom n k r.2.1) := by
  unfold storeGet
  cases s with
  | loc l => exact Yields.any (fun _ => Yields.pure' h)
  | http l => exact Yields.any (fun _ => Yields.pure' h)
  | target => exact Yields.bind' (yields_targetGet hlib h id out) (fun a ha => Yields.pure' ha)

theorem yields_targetWrite {lib : Lib} (hlib : lib.Conforms) {n k : Nat} {t : Tgt} (h : TgtRoom n (k + 1) t) (buf : Bytes) (len off : Nat) (id : Id) :
    Yields (targetWrite lib t buf len off id) (fun r => TgtRoom n k r.2) := by
  unfold targetWrite
  dsimp only
  refine Yields.ite (Yields.bind' (P := fun _ => False) (Yields.stop _) (fun _ h => h.elim)) (Yields.any (fun ok => ?_))
  exact Yields.ite (Yields.pure' h.le) (Yields.bind' (yields_targetAdd hlib h len off id) (fun a ha => Yields.pure' ha))

theorem yields_targetCheck {env : Env} (hlib : env.lib.Conforms) {n k : Nat} {t : Tgt} (h : TgtRoom n (k + 1) t) (buf : Bytes) (len off : Nat) (id : Id) :
    Yields (targetCheck env t buf len off id) (fun r => TgtRoom n k r.2.1 ∧ (r.1 ≠ some true → TgtRoom n (k + 1) r.2.1)) := by
  unfold targetCheck
  dsimp only
  refine Yields.ite (Yields.bind' (P := fun _ => False) (Yields.stop _) (fun _ h => h.elim)) (Yields.any (fun a => ?_))
  refine Yields.ite (Yields.pure' ⟨h.le, fun _ => h⟩) (Yields.ite (Yields.pure' ⟨h.le, fun _ => h⟩) ?_)
  exact Yields.bind' (yields_targetAdd hlib h len off id) (fun a ha => Yields.pure' ⟨ha, fun e => absurd rfl e⟩)

theorem yields_entryCb {env : Env} (hlib : env.lib.Conforms) {n k : Nat} {c : Cb} (h : TgtRoom n (k + 1) c.tgt) (e : Seg) :
    Yields (entryCb env c e) (fun r => TgtRoom n k r.2.tgt) := by
  unfold entryCb
  have last : ∀ a : Bool × Cb, TgtRoom n (k + 1) a.2.tgt → Yields (match a with
      | (false, c) => Pure.pure (false, c)
      | (true, c) => do
        let (ok, tgt) ← targetWrite env.lib c.tgt c.buf e.len e.off e.id
        Pure.pure (ok, { c with tgt := tgt })) (fun r => TgtRoom n k r.2.tgt) := by
    intro a ha
    obtain ⟨b, c⟩ := a
    cases b with
    | false => exact Yields.pure' ha.le
    | true => exact Yields.bind' (yields_targetWrite hlib ha _ _ _ _) (fun a ha => Yields.pure' ha)
  have store : ∀ c : Cb, TgtRoom n (k + 1) c.tgt → Yields (do
      let fetched : Bool × Cb ←
        if !c.haveLast || c.lastId != e.id then do
          let (r, tgt, chain, buf) ← chainGet (storeGet env) c.tgt c.chain e.id c.buf
          let c := { c with tgt := tgt, chain := chain, buf := buf }
          if r = some e.len then Pure.pure (true, { c with lastId := e.id, haveLast := true })
          else Pure.pure (false, c)
        else Pure.pure (true, c)
      match fetched with
      | (false, c) => Pure.pure (false, c)
      | (true, c) => do
        let (ok, tgt) ← targetWrite env.lib c.tgt c.buf e.len e.off e.id
        Pure.pure (ok, { c with tgt := tgt })) (fun r => TgtRoom n k r.2.tgt) := by
    intro c hc
    dsimp only
    split
    rotate_left
    · exact Yields.bind' (Yields.pure' (P := fun a : Bool × Cb => TgtRoom n (k + 1) a.2.tgt) hc) last
    refine Yields.bind' (P := fun r => TgtRoom n (k + 1) r.2.1) ?_ (fun a ha => ?_)
    rotate_left
    · obtain ⟨r, tgt, chain, buf⟩ := a
      dsimp only at ha ⊢
      split
      · exact Yields.bind' (Yields.pure' (P := fun a : Bool × Cb => TgtRoom n (k + 1) a.2.tgt) ha) last
      · exact Yields.bind' (Yields.pure' (P := fun a : Bool × Cb => TgtRoom n (k + 1) a.2.tgt) ha) last
    unfold chainGet
    refine Yields.any (fun _ => Yields.bind' (yields_chainLoop (fun t s id out h => yields_storeGet hlib t s id out h) _ _ _ _ _ hc) (fun a ha => ?_))
    exact Yields.any (fun _ => Yields.pure' ha)
  dsimp only
  refine Yields.ite (Yields.ite (Yields.pure' h.le) ?_) (store c h)
  refine Yields.bind' (yields_targetCheck hlib h _ _ _ _) (fun a ha => ?_)
  obtain ⟨r, tgt, buf⟩ := a
  simp only at ha ⊢
  split
  · exact Yields.pure' ha.1
  · next hr => exact store { c with tgt := tgt, buf := buf, resuming := false } (ha.2 hr)

theorem yields_appendStore {n : Nat} (env : Env) (tpath : Bytes) (p : Params) {t : Tgt} (h : TgtRoom n n t) (c : Chain Store) (arg : Bytes) :
    Yields (appendStore env tpath n p t c arg) (fun r => TgtRoom n n r.2.1) := by
  unfold appendStore
  refine Yields.bind' (P := fun r => ∀ s t', r = some (s, t') → TgtRoom n n t') ?_ (fun a ha => ?_)
  · unfold makeStore
    refine Yields.ite ?_ (Yields.ite ?_ ?_)
    · refine Yields.bind' (P := fun r => TgtRoom n n r.2) ?_ (fun a ha => ?_)
      · unfold targetAsStore
        refine Yields.ite (Yields.pure' h) (Yields.bind' (yields_init n) (fun a ha => ?_))
        cases a with
        | none => exact Yields.pure' h
        | some idx => exact Yields.pure' (fun _ => ha idx rfl)
      · obtain ⟨b, t'⟩ := a
        cases b with
        | false => exact Yields.pure' (by simp)
        | true => exact Yields.pure' (by rintro s t2 e; cases e; exact ha)
    · refine Yields.any (fun a => ?_)
      cases a with
      | none => exact Yields.pure' (by simp)
      | some x => exact Yields.pure' (by rintro s t2 e; cases e; exact h)
    · refine Yields.any (fun a => ?_)
      cases a with
      | none => exact Yields.pure' (by simp)
      | some x => exact Yields.pure' (by rintro s t2 e; cases e; exact h)
  · cases a with
    | none => exact Yields.pure' h
    | some x => exact Yields.any (fun _ => Yields.pure' (ha x.1 x.2 rfl))

theorem yields_appendAll {n : Nat} (env : Env) (tpath : Bytes) (p : Params) : ∀ (as : List Bytes) (t : Tgt) (c : Chain Store), TgtRoom n n t →
    Yields (appendAll env tpath n p t c as) (fun r => TgtRoom n n r.2.1)
  | [], _, _, h => by unfold appendAll; exact Yields.pure' h
  | a :: as, t, c, h => by
    unfold appendAll
    refine Yields.bind' (yields_appendStore env tpath p h c a) (fun r hr => ?_)
    obtain ⟨b, t', c'⟩ := r
    cases b with
    | false => exact Yields.pure' hr
    | true => exact yields_appendAll env tpath p as t' c' hr

theorem yields_casyncOpts {n : Nat} (env : Env) (tpath : Bytes) (p : Params) : ∀ (os : List Opt) (t : Tgt) (c : Chain Store), TgtRoom n n t →
    Yields (casyncOpts env tpath n p t c os) (fun r => (∀ t' c', r = .done t' c' → TgtRoom n n t') ∧ ∀ t', r = .help t' → TgtRoom n n t')
  | [], _, _, h => by unfold casyncOpts; exact Yields.pure' ⟨by rintro t' c' e; cases e; exact h, by simp⟩
  | .help :: _, _, _, h => by unfold casyncOpts; exact Yields.pure' ⟨by simp, by rintro t' e; cases e; exact h⟩
  | .store a :: os, t, c, h => by
    unfold casyncOpts
    refine Yields.bind' (yields_appendStore env tpath p h c a) (fun r hr => ?_)
    obtain ⟨b, t', c'⟩ := r
    cases b with
    | false => exact Yields.pure' ⟨by simp, by simp⟩
    | true => exact yields_casyncOpts env tpath p os t' c' hr
  | .seedOutput _ :: os, t, c, h => by unfold casyncOpts; exact yields_casyncOpts env tpath p os t c h
  | .bad :: _, t, c, h => by unfold casyncOpts; exact Yields.stop _

/-- What index and target are opened. -/
theorem wp_openBoth_room (ipath tpath : Bytes) (w : World) :
    wp (openBoth ipath tpath) (fun a _ => ∀ i p n t, a = some (i, p, n, t) → w.dir ipath = some i ∧ (w.data i).length = 104 + 40 * n ∧ t.queryable = false)
      (fun _ _ => True) w := by
  unfold openBoth
  refine wp_bind (wp_openPath ?_ ?_ ?_)
  · intro r1 _
    cases hd : w.dir ipath with
    | none => exact wp_pure (by simp)
    | some ino =>
      refine wp_bind (wp_caibxLoadHeader ?_ ?_ ?_)
      · intro r2 p n _ _ hwf
        simp only at hwf ⊢
        refine wp_bind (wp_mono (Q := fun a _ => ∀ t, a = some t → t.queryable = false) ?_ ?_ (fun _ _ h => h))
        · refine (show Yields (targetNew tpath) _ from ?_) _
          unfold targetNew
          refine Yields.any (fun _ => Yields.ite (Yields.pure' (by simp)) (Yields.any (fun a => ?_)))
          cases a with
          | none => exact Yields.pure' (by simp)
          | some i => exact Yields.pure' (by rintro t e; cases e; rfl)
        · intro a w2 ha
          cases a with
          | none => exact wp_pure (by simp)
          | some t =>
            refine wp_pure ?_
            rintro i p' n' t' e
            cases e
            exact ⟨rfl, hwf.size, ha t rfl⟩
      · intro r _ _
        exact wp_pure (by simp)
      · intro _; trivial
  · intro r _ _
    exact wp_pure (by simp)
  · intro _; trivial

theorem wp_csn_room (env : Env) (args : List Bytes) (w : World) :
    wp (csn env args) (fun a _ => ∀ s, a = some s → w.dir (args.getD 0 []) = some s.iino ∧ (w.data s.iino).length = 104 + 40 * s.n ∧ TgtRoom s.n s.n s.tgt)
      (fun _ _ => True) w := by
  unfold csn
  split
  · next ipath tpath s ss =>
    split
    · exact wp_pure (by simp)
    · refine wp_bind (wp_mono (wp_openBoth_room ipath tpath w) ?_ (fun _ _ h => h))
      intro a w1 ha
      split
      · exact wp_pure (by simp)
      · next i p n t =>
        obtain ⟨h1, h2, h3⟩ := ha i p n t rfl
        refine (show Yields _ _ from ?_) w1
        refine Yields.any (fun a => ?_)
        split
        · exact Yields.pure' (by simp)
        · next c =>
          refine Yields.bind' (yields_appendAll env tpath p (s :: ss) t c (fun e => by rw [h3] at e; cases e)) (fun r hr => ?_)
          obtain ⟨b, t', c'⟩ := r
          cases b with
          | false => exact Yields.pure' (by simp)
          | true => exact Yields.pure' (by rintro s e; cases e; exact ⟨h1, h2, hr⟩)
  · exact wp_pure (by simp)

theorem wp_casync_room (env : Env) (posix : Bool) (args : List Bytes) (w : World) :
    wp (casync env posix args) (fun a _ => (∀ s, a = some (.ready s) → w.dir (args.getD (args.length - 2) []) = some s.iino ∧
        (w.data s.iino).length = 104 + 40 * s.n ∧ TgtRoom s.n s.n s.tgt) ∧
      (∀ i p n t, a = some (.noStore i p n t) → w.dir (args.getD (args.length - 2) []) = some i ∧ (w.data i).length = 104 + 40 * n ∧ TgtRoom n n t))
      (fun _ _ => True) w := by
  unfold casync
  dsimp only
  split
  · exact wp_stop trivial
  · rw [show args.length + 1 - 2 - 1 = args.length - 2 by omega]
    refine wp_bind (wp_mono (wp_openBoth_room _ _ w) ?_ (fun _ _ h => h))
    intro a w1 ha
    split
    · exact wp_pure (by simp)
    · next i p n t =>
      obtain ⟨h1, h2, h3⟩ := ha i p n t rfl
      refine (show Yields _ _ from ?_) w1
      refine Yields.any (fun a => ?_)
      split
      · exact Yields.pure' (by simp)
      · next c =>
        refine Yields.bind' (yields_casyncOpts env _ p _ t c (fun e => by rw [h3] at e; cases e)) (fun r hr => ?_)
        split
        · exact Yields.pure' (by simp)
        · next t' => exact Yields.pure' ⟨by simp, by rintro i p n t e; cases e; exact ⟨h1, h2, hr.2 _ rfl⟩⟩
        · next t' c' =>
          refine Yields.ite (Yields.stop _) (Yields.pure' ⟨?_, by simp⟩)
          rintro s e
          cases e
          exact ⟨h1, h2, hr.1 _ _ rfl⟩

/-! ### Local stores -/

/-- The index a local store is created with is one for the entries of the index file, or made for a scan. -/
theorem storeSideload_room (l : Loc) (path : Bytes) (w : World) :
    wp (storeSideload l path) (fun a _ => a.2.ino = l.ino ∧ a.2.p = l.p ∧
      (a.1 = true → ∃ idx i n, a.2.idx = .live idx ∧ w.dir path = some i ∧ (w.data i).length = 104 + 40 * n ∧ idx.cap = 48 * n) ∧
      (a.1 = false → ∀ idx, a.2.idx = .live idx → l.idx = .live idx)) (fun _ _ => True) w := by
  unfold storeSideload
  refine wp_bind (wp_openPath ?_ ?_ ?_)
  · intro r1 _
    cases hd : w.dir path with
    | none => exact wp_pure ⟨rfl, rfl, by simp, fun _ _ h => h⟩
    | some ino =>
      refine wp_bind (wp_caibxLoadHeader ?_ ?_ ?_)
      · intro r2 p n _ _ hwf
        simp only at hwf ⊢
        refine (show Yields _ _ from ?_) _
        refine Yields.ite (Yields.pure' ⟨rfl, rfl, by simp, fun _ _ h => h⟩) (Yields.bind' (yields_init n) (fun a ha => ?_))
        cases a with
        | none => exact Yields.pure' ⟨rfl, rfl, by simp, fun _ idx h => by cases h⟩
        | some idx =>
          refine Yields.bind' (yields_caibxIterate (P := Ample n) (fun k s seg h => ?_) (fun k s h => h.le) (ha idx rfl)) (fun r hr => ?_)
          · unfold storeInsertM
            refine Yields.bind' (yields_insert h) (fun a ha => ?_)
            obtain ⟨o, idx'⟩ := a
            cases o with
            | none => exact Yields.pure' ha
            | some i => exact Yields.pure' ⟨ha.1, ha.2.1, by rw [orFlags_length]; exact ha.2.2⟩
          · obtain ⟨b, idx'⟩ := r
            cases b with
            | false => exact Yields.pure' ⟨rfl, rfl, by simp, fun _ idx h => by cases h⟩
            | true => exact Yields.pure' ⟨rfl, rfl, fun _ => ⟨idx', ino, n, rfl, rfl, hwf.size, hr.2.1⟩, by simp⟩
      · intro r _ _
        exact wp_pure ⟨rfl, rfl, by simp, fun _ _ h => h⟩
      · intro _; trivial
  · intro r _ _
    exact wp_pure ⟨rfl, rfl, by simp, fun _ _ h => h⟩
  · intro _; trivial

theorem localNew_room {env : LEnv} {path : Bytes} {index : Option Bytes} {p : Params} {d : Nat} (he : ScanEnv env.disc env.bufsiz p d) (w : World) :
    wp (localNew env path index p) (fun a w' => w'.data = w.data ∧ ∀ l, a = some l → w.dir path = some l.ino ∧ l.p = p ∧
      ((∃ idx ipath i n, l.idx = .live idx ∧ index = some ipath ∧ w.dir ipath = some i ∧ (w.data i).length = 104 + 40 * n ∧ idx.cap = 48 * n) ∨
        Small (scanRoom p (w.data l.ino).length) l)) (fun _ _ => True) w := by
  have scan : ∀ (l : Loc) (w1 : World), w1.data = w.data → w.dir path = some l.ino → l.p = p → (∀ idx, l.idx ≠ .live idx) →
      wp (do
        match ← storeScan env l with
        | (false, _) => return none
        | (true, l) => return some l) (fun a w' => w'.data = w.data ∧ ∀ l, a = some l → w.dir path = some l.ino ∧ l.p = p ∧
      ((∃ idx ipath i n, l.idx = .live idx ∧ index = some ipath ∧ w.dir ipath = some i ∧ (w.data i).length = 104 + 40 * n ∧ idx.cap = 48 * n) ∨
        Small (scanRoom p (w.data l.ino).length) l)) (fun _ _ => True) w1 := by
    intro l w1 h1 h2 h3 h4
    refine wp_bind (wp_mono (storeScan_room (d := d) (B := scanRoom p (w.data l.ino).length) (by rw [h3]; exact he) (fun i e => absurd e (h4 i)) (by rw [h1, h3]; exact Nat.le_refl _)) ?_ (fun _ _ h => h))
    intro a w2 ⟨g1, g2, g3, g4⟩
    obtain ⟨b, l2⟩ := a
    simp only at g2 g3 g4
    cases b with
    | false => exact wp_pure ⟨g1.trans h1, by simp⟩
    | true =>
      refine wp_pure ⟨g1.trans h1, ?_⟩
      rintro l' e
      cases e
      exact ⟨by rw [g2]; exact h2, g3.trans h3, Or.inr (by rw [g2]; exact g4)⟩
  unfold localNew
  refine wp_bind (wp_alloc ?_)
  split
  · exact wp_pure ⟨rfl, by simp⟩
  · refine wp_bind (wp_openPath ?_ ?_ ?_)
    · intro r1 _
      simp only
      cases hd : w.dir path with
      | none => exact wp_pure ⟨rfl, by simp⟩
      | some ino =>
        simp only
        simp only [hd] at scan
        cases index with
        | none => exact scan ⟨ino, .null, p⟩ _ rfl rfl rfl (by simp)
        | some ipath =>
          have hro := (readOnly_closed0 env).storeSideload ⟨ino, .null, p⟩ ipath
          have hro' : ∀ w0 : World, wp (storeSideload ⟨ino, .null, p⟩ ipath) (fun _ w' => w'.data = w0.data) (fun _ _ => True) w0 := by
            intro w0
            unfold wp
            have := hro w0
            split
            · next e => rw [e] at this; exact this.1
            · trivial
          refine wp_bind (wp_mono (wp_and (storeSideload_room ⟨ino, .null, p⟩ ipath _) (hro' _)) ?_ (fun _ _ _ => trivial))
          intro a w2 ⟨⟨h1, h2, h3, h4⟩, h5⟩
          obtain ⟨b, l2⟩ := a
          simp only at h1 h2 h3 h4 h5
          cases b with
          | false => exact scan l2 w2 h5 (by rw [h1]) h2 (fun idx e => by cases h4 rfl idx e)
          | true =>
            refine wp_pure ⟨h5, ?_⟩
            rintro l' e
            cases e
            obtain ⟨idx, i, n, e1, e2, e3, e4⟩ := h3 rfl
            exact ⟨by rw [h1], h2, Or.inl ⟨idx, ipath, i, n, e1, rfl, e2, e3, e4⟩⟩
    · intro r _ _
      exact wp_pure ⟨rfl, by simp⟩
    · intro _; trivial

end Csn.Proof
