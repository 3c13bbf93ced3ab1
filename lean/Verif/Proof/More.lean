import Verif.Proof.Logged
import Verif.Proof.Walk
import Verif.Proof.Sync
import Verif.Proof.Inodes
import Verif.Proof.MemSufLocal
import Verif.Spec.More
import Verif.Spec.Args
/-
Two runs that differ in one more store at the end of the chain: they are the same until a chunk is not found in the others.
-/
namespace Csn.Proof
open Csn Spec

/-- The outcome with the result changed by `g`. -/
def mapOk {α β : Type} (g : α → β) : Res α × World → Res β × World
  | (.ok a, w) => (.ok (g a), w)
  | (.stop s, w) => (.stop s, w)

/-- A chunk was not found in the chain of `a`; the store number `k` was asked for a chunk in `b`. -/
def Missed (k : Nat) (a b : World) : Prop := (∃ id, Event.answer id (some 0) ∈ a.log) ∧ ∃ id, Event.ask k id ∈ b.log

/-- From the same world, `m2` does what `m1` does, up to `g`, and the result of `m1` satisfies `V`; or a chunk was missed. -/
def More {α β : Type} (k : Nat) (g : α → β) (V : α → Prop) (m1 : M α) (m2 : M β) (w : World) : Prop :=
  (m2 w = mapOk g (m1 w) ∧ ∀ a w', m1 w = (.ok a, w') → V a) ∨ Missed k (m1 w).2 (m2 w).2

theorem Logged.mem {α : Type} {m : M α} (h : Logged m) {w : World} {e : Event} (he : e ∈ w.log) : e ∈ (m w).2.log := by
  obtain ⟨evs, h1, _⟩ := h w
  rw [h1]
  exact List.mem_append_left _ he

theorem Logged.memBind {α β : Type} {m : M α} {f : α → M β} (hf : ∀ a, Logged (f a)) {w : World} {e : Event} (he : e ∈ (m w).2.log) :
    e ∈ ((m >>= f) w).2.log := by
  rw [bind_apply]
  cases h : m w with
  | mk r w' =>
    rw [h] at he
    cases r with
    | ok a => exact (hf a).mem he
    | stop s => exact he

theorem More.bind {α α' β β' : Type} {k : Nat} {g : α → α'} {V : α → Prop} {h : β → β'} {U : β → Prop} {m1 : M α} {m2 : M α'}
    {f1 : α → M β} {f2 : α' → M β'} {w : World} (hm : More k g V m1 m2 w) (hf1 : ∀ a, Logged (f1 a)) (hf2 : ∀ a, Logged (f2 a))
    (hf : ∀ a w', V a → More k h U (f1 a) (f2 (g a)) w') : More k h U (m1 >>= f1) (m2 >>= f2) w := by
  rcases hm with ⟨e, hv⟩ | ⟨⟨i, h1⟩, j, h2⟩
  · cases hr : m1 w with
    | mk r w' =>
      rw [hr] at e
      have b1 : (m1 >>= f1) w = match m1 w with | (.ok a, w') => f1 a w' | (.stop s, w') => (.stop s, w') := rfl
      have b2 : (m2 >>= f2) w = match m2 w with | (.ok a, w') => f2 a w' | (.stop s, w') => (.stop s, w') := rfl
      rw [hr] at b1
      rw [e] at b2
      cases r with
      | ok a =>
        have := hf a w' (hv a w' hr)
        unfold More at this ⊢
        rw [b1, b2]
        exact this
      | stop s =>
        refine Or.inl ⟨?_, fun a w' ha => ?_⟩
        · rw [b1, b2]; rfl
        · rw [b1] at ha; cases ha
  · exact Or.inr ⟨⟨i, Logged.memBind hf1 h1⟩, j, Logged.memBind hf2 h2⟩

theorem More.refl {α : Type} {k : Nat} (m : M α) (w : World) : More k id (fun _ => True) m m w := by
  refine Or.inl ⟨?_, fun _ _ _ => trivial⟩
  cases h : m w with
  | mk r w' => cases r <;> rfl

theorem More.pure {α β : Type} {k : Nat} {g : α → β} {V : α → Prop} {a : α} {b : β} {w : World} (h : b = g a) (hv : V a) :
    More k g V (Pure.pure a : M α) (Pure.pure b : M β) w := by
  subst h
  refine Or.inl ⟨rfl, ?_⟩
  intro a' w' h
  cases h
  exact hv

/-! ### The chain -/

/-- The chain with one more store. -/
def withExtra (x : Sub Store) (c : Chain Store) : Chain Store :=
  { c with subs := c.subs ++ [x], space := c.space + 1, zeroed := c.zeroed + 1 }

section
variable {env : Env}

theorem logged_storeGet (t : Tgt) (s : Store) (id : Id) (out : Bytes) : Logged (storeGet env t s id out) :=
  (logged_closed env.toLEnv).storeGet logged_netOps env rfl t s id out

theorem logged_chainLoop (id : Id) (i : Nat) (t : Tgt) (subs : List (Sub Store)) (out : Bytes) : Logged (chainLoop (storeGet env) id i t subs out) :=
  (logged_closed env.toLEnv).chainLoop trivial logged_storeGet id subs i t out

/-- What happens with one more store `x` once the others have been asked. -/
def lastStore (env : Env) (x : Sub Store) (id : Id) (k : Nat) (a : Option Nat × Tgt × List (Sub Store) × Bytes) :
    M (Option Nat × Tgt × List (Sub Store) × Bytes) :=
  if a.1 = some 0 then do
    let r ← chainLoop (storeGet env) id k a.2.1 [x] a.2.2.2
    return (r.1, r.2.1, a.2.2.1 ++ r.2.2.1, r.2.2.2)
  else return (a.1, a.2.1, a.2.2.1 ++ [x], a.2.2.2)

theorem m_assoc {α β γ : Type} (m : M α) (f : α → M β) (g : β → M γ) : (m >>= f) >>= g = m >>= fun a => f a >>= g := by
  funext w
  simp only [bind_apply]
  cases h : m w with
  | mk r w' => cases r <;> rfl

theorem m_pure_bind {α β : Type} (a : α) (f : α → M β) : (pure a : M α) >>= f = f a := rfl

theorem m_bind_pure {α : Type} (m : M α) : (m >>= fun a => pure a) = m := by
  funext w
  rw [bind_apply]
  cases h : m w with
  | mk r w' => cases r <;> rfl

theorem lastStore_cons (x : Sub Store) (id : Id) (k : Nat) (s : Sub Store) (a : Option Nat × Tgt × List (Sub Store) × Bytes) :
    (lastStore env x id k a >>= fun r => (pure (r.1, r.2.1, s :: r.2.2.1, r.2.2.2) : M (Option Nat × Tgt × List (Sub Store) × Bytes))) =
      lastStore env x id k (a.1, a.2.1, s :: a.2.2.1, a.2.2.2) := by
  unfold lastStore
  by_cases h : a.1 = some 0
  · simp only [h, if_true, m_assoc, m_pure_bind, List.cons_append]
  · simp only [h, if_false, m_pure_bind, List.cons_append]

theorem chainLoop_extra (x : Sub Store) (id : Id) : ∀ (subs : List (Sub Store)) (i : Nat) (t : Tgt) (out : Bytes),
    chainLoop (storeGet env) id i t (subs ++ [x]) out =
      chainLoop (storeGet env) id i t subs out >>= lastStore env x id (i + subs.length)
  | [], i, t, out => by
    show _ = (pure (some 0, t, [], out) : M (Option Nat × Tgt × List (Sub Store) × Bytes)) >>= _
    rw [m_pure_bind]
    unfold lastStore
    simp only [if_true, List.nil_append, List.length_nil, Nat.add_zero]
    exact (m_bind_pure _).symm
  | s :: subs, i, t, out => by
    have ih := fun i t out => chainLoop_extra x id subs i t out
    have hk : i + (s :: subs).length = i + 1 + subs.length := by simp only [List.length_cons]; omega
    rw [hk, List.cons_append, chainLoop, chainLoop]
    by_cases ha : (!s.active) = true
    · simp only [ha, if_true]
      show (chainLoop (storeGet env) id (i + 1) t (subs ++ [x]) out >>= fun r => (pure (r.1, r.2.1, s :: r.2.2.1, r.2.2.2) : M _)) =
        (chainLoop (storeGet env) id (i + 1) t subs out >>= fun r => (pure (r.1, r.2.1, s :: r.2.2.1, r.2.2.2) : M _)) >>= _
      rw [ih, m_assoc, m_assoc]
      congr 1
      funext a
      rw [lastStore_cons, m_pure_bind]
    · simp only [ha, if_false, Bool.false_eq_true]
      rw [m_assoc]
      congr 1
      funext _
      rw [m_assoc]
      congr 1
      funext a
      obtain ⟨r, t', s', out'⟩ := a
      cases r with
      | none =>
        dsimp only
        rw [m_assoc]
        congr 1
        funext _
        show (chainLoop (storeGet env) id (i + 1) t' (subs ++ [x]) out' >>= fun r => (pure (r.1, r.2.1, { s with s := s', active := false } :: r.2.2.1, r.2.2.2) : M _)) =
          (chainLoop (storeGet env) id (i + 1) t' subs out' >>= fun r => (pure (r.1, r.2.1, { s with s := s', active := false } :: r.2.2.1, r.2.2.2) : M _)) >>= _
        rw [ih, m_assoc, m_assoc]
        congr 1
        funext a
        rw [lastStore_cons, m_pure_bind]
      | some n =>
        cases n with
        | zero =>
          dsimp only
          show (chainLoop (storeGet env) id (i + 1) t' (subs ++ [x]) out' >>= fun r => (pure (r.1, r.2.1, { s with s := s' } :: r.2.2.1, r.2.2.2) : M _)) =
            (chainLoop (storeGet env) id (i + 1) t' subs out' >>= fun r => (pure (r.1, r.2.1, { s with s := s' } :: r.2.2.1, r.2.2.2) : M _)) >>= _
          rw [ih, m_assoc, m_assoc]
          congr 1
          funext a
          rw [lastStore_cons, m_pure_bind]
        | succ n =>
          dsimp only
          rw [m_pure_bind]
          unfold lastStore
          simp

theorem chainLoop_length (id : Id) : ∀ (subs : List (Sub Store)) (i : Nat) (t : Tgt) (out : Bytes) (w : World),
    wp (chainLoop (storeGet env) id i t subs out) (fun a _ => a.2.2.1.length = subs.length) (fun _ _ => True) w
  | [], i, t, out, w => rfl
  | s :: subs, i, t, out, w => by
    rw [chainLoop]
    by_cases ha : (!s.active) = true
    · simp only [ha, if_true]
      refine wp_bind (wp_mono (chainLoop_length id subs (i + 1) t out w) ?_ (fun _ _ _ => trivial))
      intro a w' h
      exact wp_pure (by simpa using h)
    · simp only [ha, if_false, Bool.false_eq_true]
      refine wp_bind (wp_emit (wp_bind ?_))
      refine wp_mono (wp_any _ _) ?_ (fun _ _ _ => trivial)
      rintro ⟨r, t', s', out'⟩ w' _
      cases r with
      | none =>
        refine wp_bind (wp_emit (wp_bind (wp_mono (chainLoop_length id subs (i + 1) t' out' _) ?_ (fun _ _ _ => trivial))))
        intro a w' h
        exact wp_pure (by simpa using h)
      | some n =>
        cases n with
        | zero =>
          refine wp_bind (wp_mono (chainLoop_length id subs (i + 1) t' out' _) ?_ (fun _ _ _ => trivial))
          intro a w' h
          exact wp_pure (by simpa using h)
        | succ n => exact wp_pure rfl

theorem more_chainGet {x : Sub Store} (hx : x.active = true) (t : Tgt) (c : Chain Store) (id : Id) (out : Bytes) (w : World) :
    More c.subs.length (fun a => (a.1, a.2.1, withExtra x a.2.2.1, a.2.2.2)) (fun a => a.2.2.1.subs.length = c.subs.length)
      (chainGet (storeGet env) t c id out) (chainGet (storeGet env) t (withExtra x c) id out) w := by
  have e1 : chainGet (storeGet env) t c id out w = (chainLoop (storeGet env) id 0 t c.subs out >>= fun a => M.emit (.answer id a.1) >>= fun _ =>
      (pure (a.1, a.2.1, { c with subs := a.2.2.1, queries := (c.queries + 1) % 2 ^ 32 }, a.2.2.2) : M _)) { w with log := w.log ++ [.query id] } := rfl
  have e2 : chainGet (storeGet env) t (withExtra x c) id out w = (chainLoop (storeGet env) id 0 t (c.subs ++ [x]) out >>= fun a => M.emit (.answer id a.1) >>= fun _ =>
      (pure (a.1, a.2.1, { withExtra x c with subs := a.2.2.1, queries := (c.queries + 1) % 2 ^ 32 }, a.2.2.2) : M _)) { w with log := w.log ++ [.query id] } := rfl
  rw [chainLoop_extra, m_assoc] at e2
  generalize { w with log := w.log ++ [Event.query id] } = v at e1 e2
  have hl := chainLoop_length (env := env) id c.subs 0 t out v
  unfold More
  rw [e1, e2, bind_apply, bind_apply]
  unfold wp at hl
  cases hr : chainLoop (storeGet env) id 0 t c.subs out v with
  | mk r v' =>
    rw [hr] at hl
    cases r with
    | stop s => exact Or.inl ⟨rfl, fun a w' h => by cases h⟩
    | ok a =>
      dsimp only at hl ⊢
      obtain ⟨n, t', subs', out'⟩ := a
      by_cases hn : n = some 0
      · right
        subst hn
        refine ⟨⟨id, ?_⟩, id, ?_⟩
        · show _ ∈ (v'.log ++ [Event.answer id (some 0)])
          simp
        · refine Logged.memBind (fun a => ?_) ?_
          · exact Logged.bind _ _ (Logged.emit _ trivial) (fun _ => Logged.pure _)
          · unfold lastStore
            rw [if_pos rfl]
            refine Logged.memBind (fun a => Logged.pure _) ?_
            rw [chainLoop]
            simp only [hx, Bool.not_true, Bool.false_eq_true, if_false]
            refine Logged.memBind (fun _ => ?_) (show Event.ask c.subs.length id ∈ v'.log ++ [Event.ask (0 + c.subs.length) id] by simp)
            refine Logged.bind _ _ (logged_storeGet _ _ _ _) (fun a => ?_)
            obtain ⟨r, t, s, out⟩ := a
            dsimp only
            split
            · refine Logged.bind _ _ (Logged.emit _ trivial) (fun _ => Logged.bind _ _ (logged_chainLoop _ _ _ _ _) (fun _ => Logged.pure _))
            · exact Logged.pure _
            · exact Logged.bind _ _ (logged_chainLoop _ _ _ _ _) (fun _ => Logged.pure _)
      · left
        unfold lastStore
        rw [if_neg hn]
        refine ⟨rfl, fun a w' h => ?_⟩
        cases h
        exact hl

/-! ### The callback and the loop -/

/-- The callback's state with one more store. -/
def cbExtra (x : Sub Store) (c : Cb) : Cb := { c with chain := withExtra x c.chain }

theorem logged_chainGet (t : Tgt) (c : Chain Store) (id : Id) (out : Bytes) : Logged (chainGet (storeGet env) t c id out) :=
  (logged_closed env.toLEnv).chainGet trivial logged_storeGet t c id out

theorem logged_targetWrite (env : Env) (lib : Lib) (t : Tgt) (buf : Bytes) (len off : Nat) (id : Id) : Logged (targetWrite lib t buf len off id) :=
  (logged_closed env.toLEnv).targetWrite trivial lib t buf len off id

theorem logged_entryCb (c : Cb) (e : Seg) : Logged (entryCb env c e) :=
  (logged_closed env.toLEnv).entryCb trivial logged_netOps env rfl c e

/-- main.c:66-71, 83 -/
def writePart' (env : Env) (e : Seg) (a : Bool × Cb) : M (Bool × Cb) :=
  match a with
  | (false, c) => return (false, c)
  | (true, c) => do
    let (ok, tgt) ← targetWrite env.lib c.tgt c.buf e.len e.off e.id
    return (ok, { c with tgt := tgt })

/-- main.c:57-65 -/
def fetchPart (env : Env) (e : Seg) (c : Cb) : M (Bool × Cb) :=
  if !c.haveLast || c.lastId != e.id then do
    let (r, tgt, chain, buf) ← chainGet (storeGet env) c.tgt c.chain e.id c.buf
    let c := { c with tgt := tgt, chain := chain, buf := buf }
    if r = some e.len then pure (true, { c with lastId := e.id, haveLast := true })
    else pure (false, c)
  else pure (true, c)

theorem storePart_eq (e : Seg) (c : Cb) : storePart env e c = fetchPart env e c >>= writePart' env e := by
  unfold storePart fetchPart
  by_cases h : (!c.haveLast || c.lastId != e.id) = true
  · simp only [h, if_true]
    rw [m_assoc]
    congr 1
    funext a
    obtain ⟨r, tgt, chain, buf⟩ := a
    dsimp only
    by_cases hr : r = some e.len
    · simp only [hr, if_true]; rfl
    · simp only [hr, if_false]; rfl
  · simp only [h]; rfl

theorem logged_writePart (e : Seg) (a : Bool × Cb) : Logged (writePart' env e a) := by
  obtain ⟨b, c⟩ := a
  cases b with
  | false => exact Logged.pure _
  | true => exact Logged.bind _ _ (logged_targetWrite env _ _ _ _ _ _) (fun _ => Logged.pure _)

/-- The state is kept apart from the number of stores. -/
abbrev KeepsLen (k : Nat) (a : Bool × Cb) : Prop := a.2.chain.subs.length = k

abbrev withMore (x : Sub Store) (a : Bool × Cb) : Bool × Cb := (a.1, cbExtra x a.2)

theorem more_writePart {x : Sub Store} {k : Nat} (e : Seg) (a : Bool × Cb) (hk : KeepsLen k a) (w : World) :
    More k (withMore x) (KeepsLen k) (writePart' env e a) (writePart' env e (withMore x a)) w := by
  obtain ⟨b, c⟩ := a
  cases b with
  | false => exact More.pure rfl hk
  | true =>
    refine More.bind (g := fun r => r) (V := fun _ => True) (More.refl _ _) (fun _ => Logged.pure _) (fun _ => Logged.pure _) ?_
    intro a w' _
    exact More.pure rfl hk

theorem more_storePart {x : Sub Store} {k : Nat} (hx : x.active = true) (e : Seg) (c : Cb) (hk : c.chain.subs.length = k) (w : World) :
    More k (withMore x) (KeepsLen k) (storePart env e c) (storePart env e (cbExtra x c)) w := by
  rw [storePart_eq, storePart_eq]
  refine More.bind (g := withMore x) (V := KeepsLen k) ?_ (logged_writePart e) (logged_writePart e) (fun a w' h => more_writePart e a h w')
  unfold fetchPart
  have hc : (!(cbExtra x c).haveLast || (cbExtra x c).lastId != e.id) = (!c.haveLast || c.lastId != e.id) := rfl
  rw [hc]
  by_cases h : (!c.haveLast || c.lastId != e.id) = true
  · simp only [h, if_true]
    refine More.bind (by have := more_chainGet (env := env) hx c.tgt c.chain e.id c.buf w; rw [hk] at this; exact this) (fun a => ?_) (fun a => ?_) ?_
    · split <;> exact Logged.pure _
    · split <;> exact Logged.pure _
    · rintro ⟨r, tgt, chain, buf⟩ w' hv
      dsimp only
      by_cases hr : r = some e.len
      · simp only [hr, if_true]
        exact More.pure rfl hv
      · simp only [hr, if_false]
        exact More.pure rfl hv
  · simp only [h]
    exact More.pure rfl hk

theorem more_entryCb {x : Sub Store} {k : Nat} (hx : x.active = true) (e : Seg) (c : Cb) (hk : c.chain.subs.length = k) (w : World) :
    More k (withMore x) (KeepsLen k) (entryCb env c e) (entryCb env (cbExtra x c) e) w := by
  have logged_store : ∀ c, Logged (storePart env e c) := by
    intro c
    have := logged_entryCb (env := env) { c with resuming := false } e
    rw [entryCb_eq] at this
    rw [storePart_eq]
    refine Logged.bind _ _ ?_ (logged_writePart e)
    unfold fetchPart
    split
    · refine Logged.bind _ _ (logged_chainGet _ _ _ _) (fun a => ?_)
      dsimp only
      split <;> exact Logged.pure _
    · exact Logged.pure _
  rw [entryCb_eq, entryCb_eq]
  have hr : (cbExtra x c).resuming = c.resuming := rfl
  have hb : (cbExtra x c).buf = c.buf := rfl
  rw [hr, hb]
  by_cases h : c.resuming = true
  · simp only [h, if_true]
    by_cases hl : e.len > c.buf.length
    · simp only [hl, if_true]
      exact More.pure rfl hk
    · simp only [hl, if_false]
      refine More.bind (g := fun r => r) (V := fun _ => True) (More.refl _ _) (fun a => ?_) (fun a => ?_) ?_
      · split
        · exact Logged.pure _
        · exact logged_store _
      · split
        · exact Logged.pure _
        · exact logged_store _
      · rintro ⟨r, tgt, buf⟩ w' _
        dsimp only
        by_cases hr : r = some true
        · simp only [hr, if_true]
          exact More.pure rfl hk
        · simp only [hr, if_false]
          exact more_storePart hx e { c with tgt := tgt, buf := buf, resuming := false } hk w'
  · simp only [h]
    exact more_storePart hx e c hk w

theorem logged_iterLoop (ino : Nat) (p : Params) (rem pos last : Nat) (c : Cb) : Logged (iterLoop ino p (entryCb env) rem pos last c) :=
  (logged_closed env.toLEnv).iterLoop ino p (fun s e => logged_entryCb s e) rem pos last c

local macro "more_logged" cl:ident hl:ident : tactic => `(tactic|
  (intro _
   repeat' (first
    | exact Logged.pure _
    | exact $hl _ _ _
    | exact logged_entryCb _ _
    | exact ($cl).ld64le _ _
    | exact ($cl).ldBytes _ _ _
    | refine Logged.bind _ _ ?_ (fun _ => ?_)
    | split
    | dsimp only)))

theorem more_iterLoop {x : Sub Store} {k : Nat} (hx : x.active = true) (ino : Nat) (p : Params) : ∀ (rem pos last : Nat) (c : Cb) (w : World),
    c.chain.subs.length = k →
    More k (withMore x) (KeepsLen k) (iterLoop ino p (entryCb env) rem pos last c) (iterLoop ino p (entryCb env) rem pos last (cbExtra x c)) w
  | 0, pos, last, c, w, hk => More.pure rfl hk
  | rem + 1, pos, last, c, w, hk => by
    rw [iterLoop, iterLoop]
    have hl : ∀ (c : Cb) (pos last : Nat), Logged (iterLoop ino p (entryCb env) rem pos last c) := fun c pos last => logged_iterLoop _ _ _ _ _ _
    have cl := logged_closed env.toLEnv
    refine More.bind (g := fun r => r) (V := fun _ => True) (More.refl _ _) (by more_logged cl hl) (by more_logged cl hl) ?_
    rintro ⟨b, buf⟩ w1 _
    cases b with
    | false => exact More.pure rfl hk
    | true =>
      dsimp only
      refine More.bind (g := fun r => r) (V := fun _ => True) (More.refl _ _) (by more_logged cl hl) (by more_logged cl hl) ?_
      intro off w2 _
      refine More.bind (g := fun r => r) (V := fun _ => True) (More.refl _ _) (by more_logged cl hl) (by more_logged cl hl) ?_
      intro id w3 _
      by_cases hs : ¬ ((off + 2 ^ 64 - last) % 2 ^ 64 < p.min ∧ 0 < rem) ∧ (off + 2 ^ 64 - last) % 2 ^ 64 > p.max ∧ (off + 2 ^ 64 - last) % 2 ^ 64 > 2 ^ 32 - 1
      · rw [if_pos hs, if_pos hs]
        exact more_iterLoop hx ino p rem _ _ c w3 hk
      · rw [if_neg hs, if_neg hs]
        refine More.bind (more_entryCb hx _ c hk w3) (by more_logged cl hl) (by more_logged cl hl) ?_
        rintro ⟨b, c'⟩ w4 hk'
        cases b with
        | false => exact More.pure rfl hk'
        | true => exact more_iterLoop hx ino p rem _ _ c' w4 hk'

/-! ### Clean-up -/

theorem freeAll_const : ∀ subs : List (Sub Store), (∀ w, freeAll subs w = (.ok (), w)) ∨ (∀ w, freeAll subs w = (.stop .ub, w))
  | [] => Or.inl (fun _ => rfl)
  | s :: r => by
    have ih := freeAll_const r
    have hf : ∀ w, freeAll (s :: r) w = ((match s.s with | .loc l => localFree l | _ => (pure () : M Unit)) >>= fun _ => freeAll r) w := by
      intro w
      obtain ⟨st, a, h⟩ := s
      cases st <;> rfl
    have hs : (∀ w, (match s.s with | .loc l => localFree l | _ => (pure () : M Unit)) w = (.ok (), w)) ∨
        (∀ w, (match s.s with | .loc l => localFree l | _ => (pure () : M Unit)) w = (.stop .ub, w)) := by
      cases s.s with
      | loc l =>
        dsimp only
        unfold localFree
        cases l.idx with
        | freed => exact Or.inr (fun _ => rfl)
        | _ => exact Or.inl (fun _ => rfl)
      | http h => exact Or.inl (fun _ => rfl)
      | target => exact Or.inl (fun _ => rfl)
    rcases hs with hs | hs
    · rcases ih with ih | ih
      · left; intro w; rw [hf, bind_apply, hs w]; exact ih w
      · right; intro w; rw [hf, bind_apply, hs w]; exact ih w
    · right; intro w; rw [hf, bind_apply, hs w]

theorem freeAll_extra (h : Http) (b : Bool) (n : Option Nat) : ∀ subs : List (Sub Store), freeAll (subs ++ [⟨.http h, b, n⟩]) = freeAll subs
  | [] => rfl
  | s :: r => by
    rw [List.cons_append, freeAll, freeAll, freeAll_extra h b n r]

theorem finish_extra (h : Http) (c : Cb) (w : World) : SameRun (finish c w) (finish (cbExtra ⟨.http h, true, some 0⟩ c) w) := by
  have e1 : finish c w = (reportSkipped c.skipped >>= fun _ => M.emit (.stats c.chain.queries (c.chain.subs.map (·.hits))) >>= fun _ =>
      freeAll c.chain.subs >>= fun _ => (pure true : M Bool)) w := rfl
  have e2 : finish (cbExtra ⟨.http h, true, some 0⟩ c) w = (reportSkipped c.skipped >>= fun _ => M.emit (.stats c.chain.queries ((c.chain.subs ++ [(⟨.http h, true, some 0⟩ : Sub Store)]).map (·.hits))) >>= fun _ =>
      freeAll (c.chain.subs ++ [⟨.http h, true, some 0⟩]) >>= fun _ => (pure true : M Bool)) w := rfl
  have hr : ∃ w', reportSkipped c.skipped w = (.ok (), w') := by
    unfold reportSkipped
    split
    · exact ⟨_, rfl⟩
    · exact ⟨_, rfl⟩
  obtain ⟨w', hr⟩ := hr
  rw [e1, e2, freeAll_extra, List.map_append, bind_apply, bind_apply, hr]
  dsimp only
  rw [bind_apply, bind_apply]
  show SameRun ((freeAll c.chain.subs >>= fun _ => (pure true : M Bool)) { w' with log := w'.log ++ [.stats c.chain.queries (c.chain.subs.map (·.hits))] })
    ((freeAll c.chain.subs >>= fun _ => (pure true : M Bool)) { w' with log := w'.log ++ [.stats c.chain.queries (c.chain.subs.map (·.hits) ++ [some 0])] })
  rw [bind_apply, bind_apply]
  rcases freeAll_const c.chain.subs with hf | hf
  · rw [hf, hf]
    exact ⟨rfl, rfl, Or.inl ⟨w'.log, c.chain.queries, c.chain.subs.map (·.hits), rfl, rfl⟩⟩
  · rw [hf, hf]
    exact ⟨rfl, rfl, Or.inl ⟨w'.log, c.chain.queries, c.chain.subs.map (·.hits), rfl, rfl⟩⟩

/-! ### Starting -/

/-- `m2` does what `m1` does, up to `g`, and the result of `m1` satisfies `V`. -/
def Alike {α β : Type} (g : α → β) (V : α → Prop) (m1 : M α) (m2 : M β) (w : World) : Prop :=
  m2 w = mapOk g (m1 w) ∧ ∀ a w', m1 w = (.ok a, w') → V a

theorem Alike.bind {α α' β β' : Type} {g : α → α'} {V : α → Prop} {h : β → β'} {U : β → Prop} {m1 : M α} {m2 : M α'}
    {f1 : α → M β} {f2 : α' → M β'} {w : World} (hm : Alike g V m1 m2 w)
    (hf : ∀ a w', m1 w = (.ok a, w') → V a → Alike h U (f1 a) (f2 (g a)) w') : Alike h U (m1 >>= f1) (m2 >>= f2) w := by
  obtain ⟨e, hv⟩ := hm
  cases hr : m1 w with
  | mk r w' =>
    rw [hr] at e
    have b1 : (m1 >>= f1) w = match m1 w with | (.ok a, w') => f1 a w' | (.stop s, w') => (.stop s, w') := rfl
    have b2 : (m2 >>= f2) w = match m2 w with | (.ok a, w') => f2 a w' | (.stop s, w') => (.stop s, w') := rfl
    rw [hr] at b1
    rw [e] at b2
    cases r with
    | ok a =>
      have := hf a w' hr (hv a w' hr)
      unfold Alike at this ⊢
      rw [b1, b2]
      exact this
    | stop s =>
      refine ⟨?_, fun a w' ha => ?_⟩
      · rw [b1, b2]; rfl
      · rw [b1] at ha; cases ha

theorem Alike.refl {α : Type} (m : M α) (w : World) : Alike id (fun _ => True) m m w := by
  refine ⟨?_, fun _ _ _ => trivial⟩
  cases h : m w with
  | mk r w' => cases r <;> rfl

theorem Alike.pure {α β : Type} {g : α → β} {V : α → Prop} {a : α} {b : β} {w : World} (h : b = g a) (hv : V a) :
    Alike g V (Pure.pure a : M α) (Pure.pure b : M β) w := by
  subst h
  refine ⟨rfl, ?_⟩
  intro a' w' h
  cases h
  exact hv

/-- The chain with room for one more store. -/
def roomier (c : Chain Store) : Chain Store := { c with space := c.space + 1, zeroed := c.zeroed + 1 }

theorem chainAppend_room {c : Chain Store} {s : Store} (h : c.subs.length < c.space) (hz : c.zeroed = c.space) :
    chainAppend c s = pure (true, { c with subs := c.subs ++ [⟨s, true, some 0⟩] }) := by
  unfold chainAppend
  have h1 : ¬ c.subs.length ≥ c.space := by omega
  rw [if_neg h1]
  simp only [m_pure_bind]
  rw [if_neg h1, if_pos (by omega)]

theorem appendAll_roomier (env : Env) (tpath : Bytes) (n : Nat) (p : Params) : ∀ (as : List Bytes) (t : Tgt) (c : Chain Store) (w : World),
    c.subs.length + as.length < c.space → c.zeroed = c.space →
    Alike (fun r => (r.1, r.2.1, roomier r.2.2)) (fun r => r.1 = true → r.2.2.subs.length = c.subs.length + as.length ∧ r.2.2.space = c.space ∧ r.2.2.zeroed = c.zeroed)
      (appendAll env tpath n p t c as) (appendAll env tpath n p t (roomier c) as) w
  | [], t, c, w, h, hz => Alike.pure rfl (fun _ => ⟨rfl, rfl, rfl⟩)
  | a :: as, t, c, w, h, hz => by
    rw [List.length_cons] at h
    rw [appendAll, appendAll]
    refine Alike.bind (g := fun r => (r.1, r.2.1, roomier r.2.2)) (V := fun r => r.1 = true → r.2.2.subs.length = c.subs.length + 1 ∧ r.2.2.space = c.space ∧ r.2.2.zeroed = c.zeroed) ?_ ?_
    · unfold appendStore
      refine Alike.bind (g := fun r => r) (V := fun _ => True) (Alike.refl _ _) ?_
      intro r w' _ _
      cases r with
      | none => exact Alike.pure rfl (fun h => by cases h)
      | some r =>
        obtain ⟨s, t'⟩ := r
        dsimp only
        have e1 : chainAppend (roomier c) s = pure (true, roomier { c with subs := c.subs ++ [⟨s, true, some 0⟩] }) :=
          chainAppend_room (show c.subs.length < c.space + 1 by omega) (show c.zeroed + 1 = c.space + 1 by omega)
        rw [e1, chainAppend_room (by omega) hz, m_pure_bind, m_pure_bind]
        exact Alike.pure rfl (fun _ => ⟨by simp, rfl, rfl⟩)
    · rintro ⟨b, t', c'⟩ w' _ hv
      cases b with
      | false => exact Alike.pure rfl (fun h => by cases h)
      | true =>
        obtain ⟨v1, v2, v3⟩ := hv rfl
        dsimp only at v1 v2 v3 ⊢
        have ih := appendAll_roomier env tpath n p as t' c' w' (by omega) (by omega)
        refine ⟨ih.1, fun a w'' ha h => ?_⟩
        obtain ⟨u1, u2, u3⟩ := ih.2 a w'' ha h
        exact ⟨by rw [u1, v1, List.length_cons]; omega, u2.trans v2, u3.trans v3⟩

theorem appendAll_snoc (env : Env) (tpath : Bytes) (n : Nat) (p : Params) (x : Bytes) : ∀ (as : List Bytes) (t : Tgt) (c : Chain Store),
    appendAll env tpath n p t c (as ++ [x]) = appendAll env tpath n p t c as >>= fun r => match r with
      | (false, t, c) => (return (false, t, c) : M (Bool × Tgt × Chain Store))
      | (true, t, c) => appendStore env tpath n p t c x
  | [], t, c => by
    show (appendStore env tpath n p t c x >>= fun r => match r with
      | (false, t, c) => (return (false, t, c) : M (Bool × Tgt × Chain Store))
      | (true, t, c) => return (true, t, c)) = appendStore env tpath n p t c x
    have : (fun r : Bool × Tgt × Chain Store => match r with
      | (false, t, c) => (return (false, t, c) : M (Bool × Tgt × Chain Store))
      | (true, t, c) => return (true, t, c)) = fun r => pure r := by
      funext r
      obtain ⟨b, t, c⟩ := r
      cases b <;> rfl
    rw [this, m_bind_pure]
  | a :: as, t, c => by
    rw [List.cons_append, appendAll, appendAll, m_assoc]
    congr 1
    funext r
    obtain ⟨b, t', c'⟩ := r
    cases b with
    | false => rfl
    | true => exact appendAll_snoc env tpath n p x as t' c'

/-! With memory for everything. -/

theorem alloc_free {n : Nat} {w : World} (hm : w.mem = []) (hn : n < 2 ^ 63) : M.alloc n w = (.ok true, w) := by
  obtain ⟨d, k, dir, nx, sys, mem, net, log⟩ := w
  simp only at hm
  subst hm
  show (Res.ok (true && decide (n < 2 ^ 63)), _) = _
  rw [decide_eq_true hn]
  rfl

theorem findIdx_none {x : Bytes} (h : 0x23 ∉ x) : lastIdx 0x23 x = none := by
  unfold lastIdx
  have : x.reverse.findIdx? (· == 0x23) = none := by
    rw [List.findIdx?_eq_none_iff]
    intro y hy
    simp only [beq_eq_false_iff_ne, ne_eq]
    rintro rfl
    exact h (List.mem_reverse.1 hy)
  rw [this]

theorem stripSlash_short (x : Bytes) : (stripSlash x).length ≤ x.length := by
  unfold stripSlash
  split
  · split
    · simp only [List.length_take]; omega
    · exact Nat.le_refl _
  · exact Nat.le_refl _

theorem httpNew_free {x : Bytes} {w : World} (hm : w.mem = []) (hx : 0x23 ∉ x) (hl : x.length < 2 ^ 32) :
    httpNew env x w = (.ok (some ⟨stripSlash x, none, 0, 0⟩), w) := by
  have hs := stripSlash_short x
  unfold httpNew
  rw [findIdx_none hx, bind_apply, alloc_free hm (by omega)]
  simp only [Bool.not_true, Bool.false_eq_true, if_false]
  rw [bind_apply, alloc_free hm (by omega)]
  simp only [Bool.not_true, Bool.false_eq_true, if_false, m_pure_bind]
  rw [bind_apply, alloc_free hm (by omega)]
  simp only [Bool.not_true, Bool.false_eq_true, if_false]
  rw [bind_apply, alloc_free hm (by omega)]
  simp only [Bool.not_true, Bool.false_eq_true, if_false]
  rw [bind_apply, alloc_free hm (by omega)]
  rfl

/-- The sub-store that one more argument gives. -/
abbrev extraSub (x : Bytes) : Sub Store := ⟨.http ⟨stripSlash x, none, 0, 0⟩, true, some 0⟩

theorem appendStore_free {tpath x : Bytes} {n : Nat} {p : Params} {t : Tgt} {c : Chain Store} {w : World} (hm : w.mem = []) (ha : HttpArg tpath x)
    (hx : 0x23 ∉ x) (hl : x.length < 2 ^ 32) (hc : c.subs.length < c.space) (hz : c.zeroed = c.space) :
    appendStore env tpath n p t c x w = (.ok (true, t, { c with subs := c.subs ++ [extraSub x] }), w) := by
  have h1 : streq x tpath = false := by
    unfold streq
    simpa using ha.1
  have h2 : startswith x (str "http") = true := by
    unfold startswith
    obtain ⟨r, hr⟩ := ha.2
    rw [← hr, List.take_left]
    simp
  unfold appendStore makeStore
  rw [h1, h2]
  simp only [Bool.false_eq_true, if_false, if_true]
  rw [m_assoc, bind_apply, httpNew_free hm hx hl]
  simp only [m_pure_bind]
  rw [chainAppend_room hc hz]
  rfl

theorem memSuf_nil {α : Type} {m : M α} (h : MemSuf m) {w : World} (hm : w.mem = []) {a : α} {w' : World} (he : m w = (.ok a, w')) : w'.mem = [] := by
  have := h w
  rw [he, hm] at this
  exact List.eq_nil_of_suffix_nil this

theorem MemSuf.chainAppend (c : Chain Store) (s : Store) : MemSuf (chainAppend c s) := by
  unfold Csn.chainAppend
  dsimp only
  repeat' (first
    | exact MemSuf.pure _
    | exact MemSuf.stop _
    | exact MemSuf.alloc _
    | refine MemSuf.bind ?_ (fun _ => ?_)
    | split)

theorem MemSuf.appendAll (env : Env) (tpath : Bytes) (n : Nat) (p : Params) : ∀ (as : List Bytes) (t : Tgt) (c : Chain Store), MemSuf (appendAll env tpath n p t c as)
  | [], t, c => MemSuf.pure _
  | a :: as, t, c => by
    rw [Csn.appendAll]
    refine MemSuf.bind ?_ (fun r => ?_)
    · unfold appendStore
      refine MemSuf.bind (MemSuf.makeStore _ _ _ _ _ _) (fun r => ?_)
      split
      · exact MemSuf.pure _
      · exact MemSuf.bind (MemSuf.chainAppend _ _) (fun _ => MemSuf.pure _)
    · split
      · exact MemSuf.pure _
      · exact MemSuf.appendAll env tpath n p as _ _

/-- What is set up with one more store. -/
def setupExtra (x : Bytes) (s : Setup) : Setup := { s with chain := withExtra (extraSub x) s.chain }

theorem csn_extra {ipath tpath x : Bytes} {stores : List Bytes} {w : World} (hm : w.mem = []) (hne : stores ≠ []) (hfew : stores.length < 2 ^ 57) (ha : HttpArg tpath x)
    (hx : 0x23 ∉ x) (hl : x.length < 2 ^ 32) :
    Alike (Option.map (setupExtra x)) (fun r => ∀ s, r = some s → s.chain.subs.length = stores.length)
      (csn env (ipath :: tpath :: stores)) (csn env (ipath :: tpath :: (stores ++ [x]))) w := by
  cases stores with
  | nil => exact absurd rfl hne
  | cons s ss =>
    unfold csn
    rw [List.cons_append]
    dsimp only
    by_cases hk : env.kcapi = some false
    · simp only [hk, if_true]
      exact Alike.pure rfl (fun s h => by cases h)
    · simp only [hk, if_false]
      refine Alike.bind (g := fun r => r) (V := fun _ => True) (Alike.refl _ _) ?_
      intro r w1 hr _
      have hm1 := memSuf_nil (MemSuf.openBoth _ _) hm hr
      cases r with
      | none => exact Alike.pure rfl (fun s h => by cases h)
      | some r =>
        obtain ⟨iino, p, n, t⟩ := r
        dsimp only
        have hnew : ∀ k, k ≠ 0 → k * 16 < 2 ^ 63 → chainNew Store k w1 = (.ok (some ⟨[], k, k, 0⟩), w1) := by
          intro k hk0 hk
          unfold chainNew
          rw [bind_apply, alloc_free hm1 (by omega)]
          simp only [Bool.not_true, Bool.false_eq_true, if_false, hk0, ne_eq, not_false_eq_true, if_true]
          rw [bind_apply, alloc_free hm1 hk]
          rfl
        rw [List.length_cons] at hfew
        have e1 : chainNew Store ((ipath :: tpath :: s :: ss).length + 1 - 3 + 1) w1 = (.ok (some ⟨[], ss.length + 2, ss.length + 2, 0⟩), w1) := by
          rw [hnew _ (by simp) (by simp only [List.length_cons]; omega)]
          simp only [List.length_cons]
          rfl
        have e2 : chainNew Store ((ipath :: tpath :: s :: (ss ++ [x])).length + 1 - 3 + 1) w1 = (.ok (some ⟨[], ss.length + 3, ss.length + 3, 0⟩), w1) := by
          rw [hnew _ (by simp) (by simp only [List.length_cons, List.length_append, List.length_nil]; omega)]
          simp only [List.length_cons, List.length_append, List.length_nil]
          rfl
        refine Alike.bind (g := Option.map roomier) (V := fun r => r = some ⟨[], ss.length + 2, ss.length + 2, 0⟩) ?_ ?_
        · unfold Alike
          rw [e1, e2]
          refine ⟨rfl, fun a w' h => ?_⟩
          cases h
          rfl
        · intro c w2 hr2 hc
          subst hc
          rw [e1] at hr2
          have hw : w1 = w2 := by
            injection hr2
          subst hw
          dsimp only [Option.map]
          have happ := appendAll_roomier env tpath n p (s :: ss) t ⟨[], ss.length + 2, ss.length + 2, 0⟩ w1 (by simp) rfl
          have happ2 := appendAll_snoc env tpath n p x (s :: ss) t (roomier ⟨[], ss.length + 2, ss.length + 2, 0⟩)
          rw [List.cons_append] at happ2
          rw [happ2, m_assoc]
          refine Alike.bind happ ?_
          rintro ⟨b, t', c'⟩ w3 hr3 hv
          cases b with
          | false => exact Alike.pure rfl (fun s h => by cases h)
          | true =>
            have hm3 := memSuf_nil (MemSuf.appendAll _ _ _ _ _ _ _) hm1 hr3
            obtain ⟨v1, v2, v3⟩ := hv rfl
            simp only [List.length_nil, List.length_cons, Nat.zero_add] at v1 v2 v3
            dsimp only
            have e3 := appendStore_free (env := env) (n := n) (p := p) (t := t') (c := roomier c') hm3 ha hx hl
              (show c'.subs.length < c'.space + 1 by omega) (show c'.zeroed + 1 = c'.space + 1 by omega)
            unfold Alike
            rw [bind_apply, e3]
            refine ⟨rfl, fun a w' h s hs => ?_⟩
            cases h
            cases hs
            simpa using v1

theorem more_csnMain {ipath tpath x : Bytes} {stores : List Bytes} {w : World} (hm : w.mem = []) (hne : stores ≠ []) (hfew : stores.length < 2 ^ 57) (ha : HttpArg tpath x)
    (hx : 0x23 ∉ x) (hl : x.length < 2 ^ 32) :
    SameRun (csnMain env (ipath :: tpath :: stores) w) (csnMain env (ipath :: tpath :: (stores ++ [x])) w) ∨
      Missed stores.length (csnMain env (ipath :: tpath :: stores) w).2 (csnMain env (ipath :: tpath :: (stores ++ [x])) w).2 := by
  obtain ⟨e, hv⟩ := csn_extra (env := env) (ipath := ipath) hm hne hfew ha hx hl
  unfold csnMain
  rw [bind_apply, bind_apply, e]
  cases hr : csn env (ipath :: tpath :: stores) w with
  | mk r w1 =>
    cases r with
    | stop s => exact Or.inl ⟨rfl, rfl, Or.inr ⟨(fun h => by cases h), rfl⟩⟩
    | ok r =>
      cases r with
      | none => exact Or.inl ⟨rfl, rfl, Or.inr ⟨(fun h => by cases h), rfl⟩⟩
      | some s =>
        have hs := hv _ _ hr s rfl
        show SameRun (sync env s w1) (sync env (setupExtra x s) w1) ∨ Missed _ (sync env s w1).2 (sync env (setupExtra x s) w1).2
        unfold sync
        have hfin : ∀ c : Bool × Cb, Logged (match c with | (false, _) => (return false : M Bool) | (true, cb) => finish cb) := by
          rintro ⟨b, c⟩
          cases b with
          | false => exact Logged.pure _
          | true => exact (logged_closed env.toLEnv).finish trivial _
        have hit := fun c w (hk : c.chain.subs.length = stores.length) =>
          more_iterLoop (env := env) (x := extraSub x) rfl s.iino s.p s.n (0x30 + 16) 0 c w hk
        have hci : ∀ c w, c.chain.subs.length = stores.length → More stores.length (withMore (extraSub x)) (KeepsLen stores.length)
            (caibxIterate s.iino s.p s.n (entryCb env) c) (caibxIterate s.iino s.p s.n (entryCb env) (cbExtra (extraSub x) c)) w := by
          intro c w hk
          unfold caibxIterate
          refine More.bind (g := fun r => r) (V := fun _ => True) (More.refl _ _) (fun a => ?_) (fun a => ?_) ?_
          · split
            · exact Logged.pure _
            · exact logged_iterLoop _ _ _ _ _ _
          · split
            · exact Logged.pure _
            · exact logged_iterLoop _ _ _ _ _ _
          · intro a w' _
            cases a with
            | false => exact More.pure rfl hk
            | true => exact hit _ _ hk
        rcases hci ⟨true, false, List.replicate 32 0, List.replicate env.bufMax 0, 0, s.tgt, s.chain⟩ w1 hs with ⟨h1, h2⟩ | ⟨⟨i, h1⟩, j, h2⟩
        · have h1' : caibxIterate (setupExtra x s).iino (setupExtra x s).p (setupExtra x s).n (entryCb env)
            ⟨true, false, List.replicate 32 0, List.replicate env.bufMax 0, 0, (setupExtra x s).tgt, (setupExtra x s).chain⟩ w1 = _ := h1
          rw [bind_apply, bind_apply, h1']
          cases hc : caibxIterate s.iino s.p s.n (entryCb env) ⟨true, false, List.replicate 32 0, List.replicate env.bufMax 0, 0, s.tgt, s.chain⟩ w1 with
          | mk r w2 =>
            cases r with
            | stop s => exact Or.inl ⟨rfl, rfl, Or.inr ⟨(fun h => by cases h), rfl⟩⟩
            | ok c =>
              obtain ⟨b, c⟩ := c
              cases b with
              | false => exact Or.inl ⟨rfl, rfl, Or.inr ⟨(fun h => by cases h), rfl⟩⟩
              | true => exact Or.inl (finish_extra _ c w2)
        · exact Or.inr ⟨⟨i, Logged.memBind hfin h1⟩, j, Logged.memBind hfin h2⟩

end
end Csn.Proof
