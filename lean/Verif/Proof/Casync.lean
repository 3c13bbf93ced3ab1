import Verif.Model.Casync
import Verif.Spec.Casync
import Verif.Proof.MemSufLocal
/-
The casync front end: options, and the number of slots of the store chain does not matter.
-/
namespace Csn.Proof
open Csn Spec

theorem startswith_append (a b : Bytes) : startswith (a ++ b) a = true := by simp [startswith]

theorem startswith_prefix (a b : Bytes) : startswith a b = true ↔ b <+: a := by
  unfold startswith
  rw [beq_iff_eq, List.prefix_iff_eq_take]
  exact eq_comm

theorem takeWhile_stop (x : UInt8) (name s : Bytes) (h : x ∉ name) : (name ++ x :: s).takeWhile (· != x) = name := by
  induction name with
  | nil => simp
  | cons y name ih =>
    simp only [List.mem_cons, not_or] at h
    have : (y != x) = true := by simp [Ne.symm h.1]
    simp only [List.cons_append, List.takeWhile_cons, this, if_true, ih h.2]

theorem takeWhile_all (x : UInt8) (name : Bytes) (h : x ∉ name) : name.takeWhile (· != x) = name := by
  induction name with
  | nil => simp
  | cons y name ih =>
    simp only [List.mem_cons, not_or] at h
    have : (y != x) = true := by simp [Ne.symm h.1]
    simp only [List.takeWhile_cons, this, if_true, ih h.2]

theorem getopt_long2 {posix : Bool} {non : List Bytes} {name s : Bytes} {r : List Bytes} {o : Long} (hn : 0x3d ∉ name) (h0 : name ≠ [])
    (hl : longMatch name = some o) (ho : o ≠ .help) :
    getopt posix none non ((str "--" ++ name) :: s :: r) = (o.withArg s :: (getopt posix none non r).1, (getopt posix none non r).2) := by
  have h1 : str "--" ++ name ≠ str "--" := by simpa using h0
  have h2 : (str "--" ++ name).drop 2 = name := rfl
  rw [getopt]
  simp only [h1, if_false, startswith_append, if_true, h2, takeWhile_all _ _ hn, hl, Nat.lt_irrefl, ho]
  rw [getopt]

theorem getopt_long1 {posix : Bool} {non : List Bytes} {name s : Bytes} {r : List Bytes} {o : Long} (hn : 0x3d ∉ name)
    (hl : longMatch name = some o) :
    getopt posix none non ((str "--" ++ (name ++ 0x3d :: s)) :: r) = (o.withArg s :: (getopt posix none non r).1, (getopt posix none non r).2) := by
  have h1 : str "--" ++ (name ++ 0x3d :: s) ≠ str "--" := by simp
  have h2 : (str "--" ++ (name ++ 0x3d :: s)).drop 2 = name ++ 0x3d :: s := rfl
  have h3 : name.length < (name ++ 0x3d :: s).length := by simp
  have h4 : (name ++ 0x3d :: s).drop (name.length + 1) = s := by
    rw [show name ++ 0x3d :: s = (name ++ [0x3d]) ++ s by simp]
    exact List.drop_left' (by simp)
  rw [getopt]
  simp only [h1, if_false, startswith_append, if_true, h2, takeWhile_stop _ _ _ hn, hl, h3, h4]

/-- The store an option names. -/
def _root_.Csn.Opt.arg? : Opt → Option Bytes
  | .store a => some a
  | _ => none

/-- Options that do not end the option loop, and the stores they name. -/
def Gives (os : List Opt) (ss : List Bytes) : Prop := os.filterMap Opt.arg? = ss ∧ ∀ o ∈ os, o ≠ .help ∧ o ≠ .bad

theorem Gives.append {os os' : List Opt} {ss ss' : List Bytes} (h : Gives os ss) (h' : Gives os' ss') : Gives (os ++ os') (ss ++ ss') := by
  refine ⟨by rw [List.filterMap_append, h.1, h'.1], ?_⟩
  intro o ho
  rcases List.mem_append.1 ho with ho | ho
  · exact h.2 o ho
  · exact h'.2 o ho

theorem getopt_options {posix : Bool} {ws ss : List Bytes} (h : Options ws ss) : ∃ os, Gives os ss ∧
    ∀ non r, getopt posix none non (ws ++ r) = (os ++ (getopt posix none non r).1, (getopt posix none non r).2) := by
  have two : ∀ (w name s : Bytes) (o : Long) (ws ss ss' : List Bytes), w = str "--" ++ name → 0x3d ∉ name → name ≠ [] → longMatch name = some o → o ≠ .help →
      (∃ os, Gives os ss ∧ ∀ non r, getopt posix none non (ws ++ r) = (os ++ (getopt posix none non r).1, (getopt posix none non r).2)) →
      (∀ os, Gives os ss → Gives (o.withArg s :: os) ss') →
      ∃ os, Gives os ss' ∧ ∀ non r, getopt posix none non ((w :: s :: ws) ++ r) = (os ++ (getopt posix none non r).1, (getopt posix none non r).2) := by
    intro w name s o ws ss ss' hw hn h0 hl ho ⟨os, h1, h2⟩ h3
    refine ⟨o.withArg s :: os, h3 os h1, fun non r => ?_⟩
    rw [hw, List.cons_append, List.cons_append, getopt_long2 hn h0 hl ho, h2]
    rfl
  have one : ∀ (w name s : Bytes) (o : Long) (ws ss ss' : List Bytes), w = str "--" ++ (name ++ 0x3d :: s) → 0x3d ∉ name → longMatch name = some o →
      (∃ os, Gives os ss ∧ ∀ non r, getopt posix none non (ws ++ r) = (os ++ (getopt posix none non r).1, (getopt posix none non r).2)) →
      (∀ os, Gives os ss → Gives (o.withArg s :: os) ss') →
      ∃ os, Gives os ss' ∧ ∀ non r, getopt posix none non ((w :: ws) ++ r) = (os ++ (getopt posix none non r).1, (getopt posix none non r).2) := by
    intro w name s o ws ss ss' hw hn hl ⟨os, h1, h2⟩ h3
    refine ⟨o.withArg s :: os, h3 os h1, fun non r => ?_⟩
    rw [hw, List.cons_append, getopt_long1 hn hl, h2]
    rfl
  have st : ∀ s os ss, Gives os ss → Gives (.store s :: os) (s :: ss) := by
    intro s os ss ⟨h1, h2⟩
    exact ⟨by simp [Opt.arg?, h1], by intro o ho; rcases List.mem_cons.1 ho with rfl | ho; simp; exact h2 o ho⟩
  have so : ∀ s os ss, Gives os ss → Gives (.seedOutput s :: os) ss := by
    intro s os ss ⟨h1, h2⟩
    exact ⟨h1, by intro o ho; rcases List.mem_cons.1 ho with rfl | ho; simp; exact h2 o ho⟩
  induction h with
  | nil => exact ⟨[], ⟨rfl, by simp⟩, fun non r => rfl⟩
  | store s _ ih => exact two _ (str "store") s .store _ _ _ (by decide) (by decide) (by decide) (by decide) (by decide) ih (st s · _)
  | seed s _ ih => exact two _ (str "seed") s .seed _ _ _ (by decide) (by decide) (by decide) (by decide) (by decide) ih (st s · _)
  | output s _ ih => exact two _ (str "seed-output") s .seedOutput _ _ _ (by decide) (by decide) (by decide) (by decide) (by decide) ih (so s · _)
  | storeEq s _ ih => exact one _ (str "store") s .store _ _ _ rfl (by decide) (by decide) ih (st s · _)
  | seedEq s _ ih => exact one _ (str "seed") s .seed _ _ _ rfl (by decide) (by decide) ih (st s · _)
  | outputEq s _ ih => exact one _ (str "seed-output") s .seedOutput _ _ _ rfl (by decide) (by decide) ih (so s · _)

theorem getopt_plain {non : List Bytes} {a : Bytes} {r : List Bytes} (h : Plain a) :
    getopt false none non (a :: r) = getopt false none (non ++ [a]) r := by
  have h1 : a ≠ str "--" := by
    rintro rfl
    rcases h with h | h
    · exact absurd h (by decide)
    · exact h ⟨str "-", by decide⟩
  have h2 : startswith a (str "--") = false := by
    rw [Bool.eq_false_iff]
    intro h2
    rw [startswith_prefix] at h2
    rcases h with h | h
    · subst h; have := h2.length_le; exact absurd this (by decide)
    · exact h (List.IsPrefix.trans ⟨str "-", by decide⟩ h2)
  have h3 : ¬ ((startswith a (str "-") && a != str "-") = true) := by
    rcases h with h | h
    · subst h; decide
    · rw [Bool.and_eq_true, startswith_prefix]; exact fun h' => h h'.1
  rw [getopt]
  simp only [h1, if_false, h2, Bool.false_eq_true, h3]

theorem getopt_posix {non : List Bytes} {r : List Bytes} : getopt true none non (str "extract" :: r) = ([], non ++ str "extract" :: r) := by
  have h1 : str "extract" ≠ str "--" := by decide
  have h2 : startswith (str "extract") (str "--") = false := by decide
  have h3 : ¬ ((startswith (str "extract") (str "-") && str "extract" != str "-") = true) := by decide
  rw [getopt]
  simp only [h1, if_false, h2, Bool.false_eq_true, h3, if_true]

/-- The options of a command line. -/
theorem getopt_commandLine {posix : Bool} {args : List Bytes} {ipath tpath : Bytes} {stores : List Bytes} (h : CommandLine posix args ipath tpath stores) :
    ∃ os, Gives os stores ∧ getopt posix none [] args = (os, [str "extract", ipath, tpath]) := by
  obtain ⟨pre, post, s1, s2, rfl, h1, h2, rfl, h3, h4⟩ := h
  obtain ⟨o1, g1, e1⟩ := getopt_options (posix := posix) h1
  obtain ⟨o2, g2, e2⟩ := getopt_options (posix := posix) h2
  refine ⟨o1 ++ o2, g1.append g2, ?_⟩
  rw [e1]
  cases posix with
  | true =>
    have hp := h3 rfl
    subst hp
    cases h2
    have : o2 = [] := by
      have := e2 [] []
      simp only [List.nil_append, getopt, Option.isSome_none, Bool.false_eq_true, if_false, List.append_nil, Prod.mk.injEq] at this
      exact this.1.symm
    subst this
    rw [getopt_posix]
    rfl
  | false =>
    obtain ⟨p1, p2⟩ := h4 rfl
    rw [getopt_plain (Or.inr (by decide)), e2, getopt_plain p1, getopt_plain p2, getopt]
    simp

/-! ### The option loop -/

theorem bind_apply {α β : Type} (m : M α) (f : α → M β) (w : World) :
    (m >>= f) w = match m w with | (.ok a, w') => f a w' | (.stop s, w') => (.stop s, w') := rfl

theorem casyncOpts_eq {env : Env} {tpath : Bytes} {n : Nat} {p : Params} {os : List Opt} {ss : List Bytes} (h : Gives os ss) (t : Tgt) (c : Chain Store) (w : World) :
    casyncOpts env tpath n p t c os w =
      (match appendAll env tpath n p t c ss w with
      | (.ok (true, t, c), w') => (.ok (.done t c), w')
      | (.ok (false, _, _), w') => (.ok .fail, w')
      | (.stop s, w') => (.stop s, w')) := by
  obtain ⟨h1, h2⟩ := h
  subst h1
  induction os generalizing t c w with
  | nil => rfl
  | cons o os ih =>
    have h2' := fun o ho => h2 o (List.mem_cons_of_mem _ ho)
    cases o with
    | help => exact absurd rfl (h2 _ (by simp)).1
    | bad => exact absurd rfl (h2 _ (by simp)).2
    | seedOutput a => exact ih t c w h2'
    | store a =>
      rw [casyncOpts, show List.filterMap Opt.arg? (Opt.store a :: os) = a :: os.filterMap Opt.arg? from rfl, appendAll, bind_apply, bind_apply]
      generalize appendStore env tpath n p t c a w = r
      obtain ⟨r, w'⟩ := r
      cases r with
      | stop s => rfl
      | ok r =>
        obtain ⟨b, t', c'⟩ := r
        cases b with
        | false => rfl
        | true => exact ih t' c' w' h2'

/-! ### The number of slots -/

/-- A change `g` to the hit counter that goes along with counting. -/
def Counts (g : Option Nat → Option Nat) : Prop := (∀ h, g (g h) = g h) ∧ ∀ h, g (h.map (fun h => (h + 1) % 2 ^ 32)) = (g h).map (fun h => (h + 1) % 2 ^ 32)

theorem counts_id : Counts (fun h => h) := ⟨fun _ => rfl, fun _ => rfl⟩
theorem counts_none : Counts (fun _ => none) := ⟨fun _ => rfl, fun _ => rfl⟩

/-- Change the hit counter. -/
def Sub.by (g : Option Nat → Option Nat) (x : Sub Store) : Sub Store := { x with hits := g x.hits }

/-- Forget the number of slots, and what `g` forgets about the hit counters. -/
def flat (g : Option Nat → Option Nat) (c : Chain Store) : Chain Store := { c with subs := c.subs.map (Sub.by g), space := 0, zeroed := 0 }

/-- Change a successful result. -/
def mapRes {α β : Type} (f : α → β) : Res α × World → Res β × World
  | (.ok a, w) => (.ok (f a), w)
  | (.stop s, w) => (.stop s, w)

theorem chainLoop_flat {g : Option Nat → Option Nat} (hg : Counts g) {env : Env} (id : Id) : ∀ (subs : List (Sub Store)) (i : Nat) (t : Tgt) (out : Bytes) (w : World),
    chainLoop (storeGet env) id i t (subs.map (Sub.by g)) out w = mapRes (fun r => (r.1, r.2.1, r.2.2.1.map (Sub.by g), r.2.2.2)) (chainLoop (storeGet env) id i t subs out w) := by
  intro subs
  induction subs with
  | nil => intro i t out w; rfl
  | cons x subs ih =>
    intro i t out w
    have step : ∀ (y : Sub Store) (i : Nat) (t : Tgt) (out : Bytes) (w : World),
        (chainLoop (storeGet env) id i t (subs.map (Sub.by g)) out >>= fun r => (pure (r.1, r.2.1, Sub.by g y :: r.2.2.1, r.2.2.2) : M _)) w =
          mapRes (fun r => (r.1, r.2.1, r.2.2.1.map (Sub.by g), r.2.2.2)) ((chainLoop (storeGet env) id i t subs out >>= fun r => (pure (r.1, r.2.1, y :: r.2.2.1, r.2.2.2) : M _)) w) := by
      intro y i t out w
      rw [bind_apply, bind_apply, ih]
      generalize chainLoop (storeGet env) id i t subs out w = r
      obtain ⟨r, w1⟩ := r
      cases r <;> rfl
    rw [List.map_cons, chainLoop, chainLoop, show (Sub.by g x).active = x.active from rfl, show (Sub.by g x).s = x.s from rfl]
    split
    · exact step x (i + 1) t out w
    · rw [bind_apply, bind_apply]
      generalize M.emit (.ask i id) w = r
      obtain ⟨r, w1⟩ := r
      cases r with
      | stop s => rfl
      | ok r =>
        dsimp only
        rw [bind_apply, bind_apply]
        generalize storeGet env t x.s id out w1 = r
        obtain ⟨r, w2⟩ := r
        cases r with
        | stop s => rfl
        | ok r =>
          obtain ⟨r, t, s, out⟩ := r
          rcases r with _ | _ | n
          · dsimp only
            rw [bind_apply, bind_apply]
            generalize M.emit (.failed i) w2 = r
            obtain ⟨r, w3⟩ := r
            cases r with
            | stop s => rfl
            | ok r => exact step { x with s := s, active := false } (i + 1) t out w3
          · exact step { x with s := s } (i + 1) t out w2
          · simp only [pure, M.pure, mapRes, List.map_cons, Sub.by, hg.2]

theorem chainGet_flat {g : Option Nat → Option Nat} (hg : Counts g) {env : Env} (t : Tgt) (c : Chain Store) (id : Id) (out : Bytes) (w : World) :
    chainGet (storeGet env) t (flat g c) id out w = mapRes (fun r => (r.1, r.2.1, flat g r.2.2.1, r.2.2.2)) (chainGet (storeGet env) t c id out w) := by
  unfold chainGet
  simp only [bind_apply, flat]
  generalize M.emit (.query id) w = r
  obtain ⟨r, w1⟩ := r
  cases r with
  | stop s => rfl
  | ok r =>
    simp only
    rw [chainLoop_flat hg]
    generalize chainLoop (storeGet env) id 0 t c.subs out w1 = r
    obtain ⟨r, w2⟩ := r
    cases r with
    | stop s => rfl
    | ok r => rfl

def Cb.flat (g : Option Nat → Option Nat) (c : Cb) : Cb := { c with chain := Proof.flat g c.chain }

theorem entryCb_flat {g : Option Nat → Option Nat} (hg : Counts g) {env : Env} (c : Cb) (e : Seg) (w : World) :
    entryCb env (Cb.flat g c) e w = mapRes (fun r => (r.1, Cb.flat g r.2)) (entryCb env c e w) := by
  have hst : ∀ (c : Cb) (w : World),
      (do
        let fetched : Bool × Cb ←
          if !(Cb.flat g c).haveLast || (Cb.flat g c).lastId != e.id then do
            let (r, tgt, chain, buf) ← chainGet (storeGet env) (Cb.flat g c).tgt (Cb.flat g c).chain e.id (Cb.flat g c).buf
            let c := { Cb.flat g c with tgt := tgt, chain := chain, buf := buf }
            if r = some e.len then pure (true, { c with lastId := e.id, haveLast := true })
            else pure (false, c)
          else pure (true, Cb.flat g c)
        match fetched with
        | (false, c) => return (false, c)
        | (true, c) => do
          let (ok, tgt) ← targetWrite env.lib c.tgt c.buf e.len e.off e.id
          return (ok, { c with tgt := tgt }) : M (Bool × Cb)) w = mapRes (fun r => (r.1, Cb.flat g r.2)) ((do
        let fetched : Bool × Cb ←
          if !c.haveLast || c.lastId != e.id then do
            let (r, tgt, chain, buf) ← chainGet (storeGet env) c.tgt c.chain e.id c.buf
            let c := { c with tgt := tgt, chain := chain, buf := buf }
            if r = some e.len then pure (true, { c with lastId := e.id, haveLast := true })
            else pure (false, c)
          else pure (true, c)
        match fetched with
        | (false, c) => return (false, c)
        | (true, c) => do
          let (ok, tgt) ← targetWrite env.lib c.tgt c.buf e.len e.off e.id
          return (ok, { c with tgt := tgt }) : M (Bool × Cb)) w) := by
    intro c w
    have hw : ∀ (c : Cb) (w : World), (targetWrite env.lib c.tgt c.buf e.len e.off e.id >>= fun r => (pure (r.1, { Cb.flat g c with tgt := r.2 }) : M (Bool × Cb))) w =
        mapRes (fun r => (r.1, Cb.flat g r.2)) ((targetWrite env.lib c.tgt c.buf e.len e.off e.id >>= fun r => (pure (r.1, { c with tgt := r.2 }) : M (Bool × Cb))) w) := by
      intro c w
      simp only [bind_apply]
      generalize targetWrite env.lib c.tgt c.buf e.len e.off e.id w = r
      obtain ⟨r, w1⟩ := r
      cases r <;> rfl
    by_cases hb : (!c.haveLast || c.lastId != e.id) = true
    · have hb' : (!(Cb.flat g c).haveLast || (Cb.flat g c).lastId != e.id) = true := hb
      simp only [hb, hb', if_true]
      rw [bind_apply, bind_apply, show (Cb.flat g c).chain = Proof.flat g c.chain from rfl, chainGet_flat hg]
      rw [show (Cb.flat g c).tgt = c.tgt from rfl, show (Cb.flat g c).buf = c.buf from rfl]
      generalize chainGet (storeGet env) c.tgt c.chain e.id c.buf w = r
      obtain ⟨r, w1⟩ := r
      cases r with
      | stop s => rfl
      | ok r =>
        obtain ⟨r, t, ch, buf⟩ := r
        simp only [mapRes]
        by_cases hr : r = some e.len
        · simp only [hr, if_true]
          exact hw { c with tgt := t, chain := ch, buf := buf, lastId := e.id, haveLast := true } w1
        · simp only [hr, if_false]
          rfl
    · have hb' : ¬ (!(Cb.flat g c).haveLast || (Cb.flat g c).lastId != e.id) = true := hb
      simp only [hb, hb', if_false]
      exact hw c w
  unfold entryCb
  dsimp only
  have e1 : (Cb.flat g c).resuming = c.resuming := rfl
  have e2 : (Cb.flat g c).buf = c.buf := rfl
  have e3 : (Cb.flat g c).tgt = c.tgt := rfl
  rw [e1, e2, e3]
  split
  · split
    · rfl
    · rw [bind_apply, bind_apply]
      generalize targetCheck env c.tgt c.buf e.len e.off e.id w = r
      obtain ⟨r, w1⟩ := r
      cases r with
      | stop s => rfl
      | ok r =>
        obtain ⟨r, t, buf⟩ := r
        dsimp only
        split
        · rfl
        · exact hst { c with tgt := t, buf := buf, resuming := false } w1
  · exact hst c w

theorem iterLoop_map {σ : Type} (f : σ → σ) {cb : σ → Seg → M (Bool × σ)} (hcb : ∀ s seg w, cb (f s) seg w = mapRes (fun r => (r.1, f r.2)) (cb s seg w))
    (ino : Nat) (p : Params) : ∀ n pos last s w, iterLoop ino p cb n pos last (f s) w = mapRes (fun r => (r.1, f r.2)) (iterLoop ino p cb n pos last s w) := by
  intro n
  induction n with
  | zero => intro pos last s w; rfl
  | succ n ih =>
    intro pos last s w
    rw [iterLoop, iterLoop, bind_apply, bind_apply]
    generalize readall ino pos 40 w = r
    obtain ⟨r, w1⟩ := r
    cases r with
    | stop x => rfl
    | ok r =>
      obtain ⟨b, buf⟩ := r
      cases b with
      | false => rfl
      | true =>
        dsimp only
        rw [bind_apply, bind_apply]
        generalize ld64le buf 0 w1 = r
        obtain ⟨r, w2⟩ := r
        cases r with
        | stop x => rfl
        | ok off =>
          dsimp only
          rw [bind_apply, bind_apply]
          generalize ldBytes buf 8 32 w2 = r
          obtain ⟨r, w3⟩ := r
          cases r with
          | stop x => rfl
          | ok id =>
            dsimp only
            split
            · exact ih _ _ _ _
            · rw [bind_apply, bind_apply, hcb]
              generalize cb s ⟨last, (off + 2 ^ 64 - last) % 2 ^ 64 % 2 ^ 32, id⟩ w3 = r
              obtain ⟨r, w4⟩ := r
              cases r with
              | stop x => rfl
              | ok r =>
                obtain ⟨b, s'⟩ := r
                cases b with
                | false => rfl
                | true => exact ih _ _ _ _

/-- A setup without the number of slots. -/
def Setup.flat (g : Option Nat → Option Nat) (s : Setup) : Setup := { s with chain := Proof.flat g s.chain }

/-- What `g` leaves of an event. -/
def Event.by (g : Option Nat → Option Nat) : Event → Event
  | .stats q hs => .stats q (hs.map g)
  | e => e

/-- What `g` leaves of the log. -/
def logBy (g : Option Nat → Option Nat) {α : Type} (r : Res α × World) : Res α × World := (r.1, { r.2 with log := r.2.log.map (Event.by g) })

theorem freeAll_still : ∀ (l : List (Sub Store)) (g : Option Nat → Option Nat), ∃ r, ∀ w, freeAll l w = (r, w) ∧ freeAll (l.map (Sub.by g)) w = (r, w)
  | [], _ => ⟨_, fun _ => ⟨rfl, rfl⟩⟩
  | ⟨.http _, _, _⟩ :: l, g => freeAll_still l g
  | ⟨.target, _, _⟩ :: l, g => freeAll_still l g
  | ⟨.loc x, a, h⟩ :: l, g => by
    obtain ⟨r, hr⟩ := freeAll_still l g
    have hq : ∃ q, ∀ w, localFree x w = (q, w) := by
      unfold localFree
      cases x.idx <;> exact ⟨_, fun _ => rfl⟩
    obtain ⟨q, hq⟩ := hq
    have e1 : ∀ w, freeAll (⟨.loc x, a, h⟩ :: l) w = (localFree x >>= fun _ => freeAll l) w := fun _ => rfl
    have e2 : ∀ w, freeAll ((⟨.loc x, a, h⟩ :: l).map (Sub.by g)) w = (localFree x >>= fun _ => freeAll (l.map (Sub.by g))) w := fun _ => rfl
    cases q with
    | stop s =>
      refine ⟨.stop s, fun w => ?_⟩
      rw [e1, e2, bind_apply, bind_apply, hq]
      exact ⟨rfl, rfl⟩
    | ok u =>
      refine ⟨r, fun w => ?_⟩
      rw [e1, e2, bind_apply, bind_apply, hq]
      exact hr w

theorem sync_flat {g : Option Nat → Option Nat} (hg : Counts g) {env : Env} (s : Setup) (w : World) : logBy g (sync env (Setup.flat g s) w) = logBy g (sync env s w) := by
  unfold sync caibxIterate
  rw [bind_apply, bind_apply, bind_apply, bind_apply]
  rw [show (Setup.flat g s).iino = s.iino from rfl, show (Setup.flat g s).p = s.p from rfl, show (Setup.flat g s).n = s.n from rfl, show (Setup.flat g s).tgt = s.tgt from rfl]
  generalize lseek (0x30 + 16) w = r
  obtain ⟨r, w1⟩ := r
  cases r with
  | stop x => rfl
  | ok b =>
    cases b with
    | false => rfl
    | true =>
      simp only [Bool.not_true, Bool.false_eq_true, if_false]
      have := iterLoop_map (Cb.flat g) (cb := entryCb env) (fun c e w => entryCb_flat hg c e w) s.iino s.p s.n (0x30 + 16) 0
        ⟨true, false, List.replicate 32 0, List.replicate env.bufMax 0, 0, s.tgt, s.chain⟩ w1
      rw [show (⟨true, false, List.replicate 32 0, List.replicate env.bufMax 0, 0, s.tgt, (Setup.flat g s).chain⟩ : Cb) = Cb.flat g ⟨true, false, List.replicate 32 0, List.replicate env.bufMax 0, 0, s.tgt, s.chain⟩ from rfl, this]
      generalize iterLoop s.iino s.p (entryCb env) s.n (0x30 + 16) 0 _ w1 = r
      obtain ⟨r, w2⟩ := r
      cases r with
      | stop x => rfl
      | ok r =>
        obtain ⟨b, c⟩ := r
        cases b with
        | false => rfl
        | true =>
          dsimp only [mapRes]
          unfold finish
          rw [bind_apply, bind_apply, show (Cb.flat g c).skipped = c.skipped from rfl]
          generalize reportSkipped c.skipped w2 = r
          obtain ⟨r, w3⟩ := r
          cases r with
          | stop x => rfl
          | ok u =>
            obtain ⟨r, hr⟩ := freeAll_still c.chain.subs g
            dsimp only
            rw [bind_apply, bind_apply]
            dsimp only [M.emit]
            rw [bind_apply, bind_apply, (hr _).1, show (Cb.flat g c).chain.subs = c.chain.subs.map (Sub.by g) from rfl, (hr _).2]
            have hh : (c.chain.subs.map (Sub.by g)).map (·.hits) = (c.chain.subs.map (·.hits)).map g := by
              rw [List.map_map, List.map_map]; rfl
            rw [hh]
            have hgg : (List.map g (List.map (fun x => x.hits) c.chain.subs)).map g = (c.chain.subs.map (·.hits)).map g := by
              rw [List.map_map]
              exact List.map_congr_left (fun a _ => hg.1 a)
            cases r <;> simp only [logBy, pure, M.pure, List.map_append, List.map_cons, List.map_nil, Event.by, hgg] <;> rfl

theorem alloc_nil {n : Nat} {w : World} (h : w.mem = []) (hn : n < 2 ^ 63) : M.alloc n w = (.ok true, w) := by
  unfold M.alloc allocPure memNext
  rw [h]
  simp only [hn, decide_true, Bool.and_true, ← h]

/-- Appending a store when memory does not run out. -/
theorem chainAppend_nil {c : Chain Store} {s : Store} {w : World} (hw : w.mem = []) (h0 : 0 < c.space) (hs : c.space < 2 ^ 58) (hl : c.subs.length ≤ c.space) :
    ∃ sp, chainAppend c s w = (.ok (true, { c with subs := c.subs ++ [⟨s, true, if c.subs.length < c.zeroed then some 0 else none⟩], space := sp }), w) ∧ 0 < sp ∧ c.subs.length + 1 ≤ sp ∧
      (sp = c.space ∨ sp = 2 * c.subs.length) := by
  unfold chainAppend
  dsimp only
  by_cases hg : c.subs.length ≥ c.space
  · have hm : c.space * 2 % 2 ^ 64 = 2 * c.space := by omega
    have e : ¬ (c.subs.length ≥ 2 * c.space) := by omega
    refine ⟨2 * c.space, ?_, by omega, by omega, by omega⟩
    simp only [hg, if_true]
    rw [bind_apply, alloc_nil hw (by omega)]
    simp only [Bool.not_true, Bool.false_eq_true, if_false]
    rw [bind_apply]
    simp only [pure, M.pure, hm, e, if_false]
  · refine ⟨c.space, ?_, h0, by omega, Or.inl rfl⟩
    simp only [hg, if_false]
    rw [bind_apply]
    simp only [pure, M.pure, hg, if_false]

/-- Without shortage of memory the number of slots does not matter. -/
theorem appendAll_flat {g : Option Nat → Option Nat} {env : Env} {tpath : Bytes} {n : Nat} {p : Params} {total : Nat} (htot : total < 2 ^ 57) : ∀ (ss : List Bytes) (t : Tgt) (c c' : Chain Store) (w : World), w.mem = [] →
    flat g c = flat g c' → (∀ i, i < total → g (if i < c.zeroed then some 0 else none) = g (if i < c'.zeroed then some 0 else none)) → 0 < c.space → 0 < c'.space → c.space < 2 ^ 58 → c'.space < 2 ^ 58 → c.subs.length ≤ c.space → c.subs.length ≤ c'.space → c.subs.length + ss.length ≤ total →
    mapRes (fun r => (r.1, r.2.1, flat g r.2.2)) (appendAll env tpath n p t c ss w) = mapRes (fun r => (r.1, r.2.1, flat g r.2.2)) (appendAll env tpath n p t c' ss w) := by
  intro ss
  induction ss with
  | nil =>
    intro t c c' w _ hf _ _ _ _ _ _ _ _
    show (Res.ok (true, t, flat g c), w) = (Res.ok (true, t, flat g c'), w)
    rw [hf]
  | cons a ss ih =>
    intro t c c' w hw hf hz h0 h0' hs hs' hl hl' htl
    have hmap : c'.subs.map (Sub.by g) = c.subs.map (Sub.by g) := (congrArg Chain.subs hf).symm
    have hsub : c'.subs.length = c.subs.length := by simpa using congrArg List.length hmap
    have hq : c'.queries = c.queries := (congrArg Chain.queries hf).symm
    rw [appendAll, appendAll, bind_apply, bind_apply]
    unfold appendStore
    rw [bind_apply, bind_apply]
    have hm := MemSuf.makeStore env tpath n p t a w
    generalize makeStore env tpath n p t a w = r at hm ⊢
    obtain ⟨r, w1⟩ := r
    rw [hw] at hm
    have hw1 : w1.mem = [] := List.eq_nil_of_suffix_nil hm
    cases r with
    | stop x => rfl
    | ok r =>
      cases r with
      | none =>
        show (Res.ok (false, t, flat g c), w1) = (Res.ok (false, t, flat g c'), w1)
        rw [hf]
      | some r =>
        obtain ⟨s, t1⟩ := r
        obtain ⟨sp, e1, g1, g2, g3⟩ := chainAppend_nil (s := s) hw1 h0 hs hl
        obtain ⟨sp', e2, g1', g2', g3'⟩ := chainAppend_nil (s := s) hw1 h0' hs' (by rw [hsub]; exact hl')
        rw [hsub] at g2' g3'
        simp only [List.length_cons] at htl
        dsimp only
        rw [bind_apply, bind_apply, e1, e2]
        dsimp only [pure, M.pure]
        refine ih t1 _ _ w1 hw1 ?_ hz g1 g1' ?_ ?_ ?_ ?_ ?_
        · have := hz c.subs.length (by omega)
          simp only [flat, List.map_append, hmap, hq, List.map_cons, List.map_nil, Sub.by, hsub, this]
        · simp only; omega
        · simp only; omega
        · simpa using g2
        · simpa using g2'
        · simp only [List.length_append, List.length_cons, List.length_nil]; omega

end Csn.Proof
