import Verif.Proof.LocalNew
import Verif.Proof.MemSufLocal
import Verif.Proof.HttpTail
import Verif.Proof.ReadOnly
import Verif.Proof.Setup
import Verif.Spec.Race
import Verif.Model.Main
/-
Every step of the synchronisation (Model/Main) is one of Model/Race.
-/
namespace Csn.Proof
open Csn Spec Race Props

variable {α β γ δ : Type}

/-- The computation of Model/Race ends with `b` when the answers are `ans`, and adds the events `evs`. -/
def Runs (y : R β) (ans : List Ans) (b : β) (evs : List Ev) : Prop :=
  ∀ rest log, y ⟨ans ++ rest, log⟩ = (.ok b, ⟨rest, log ++ evs⟩)

theorem Runs.pure (b : β) : Runs (Pure.pure b : R β) [] b [] := by
  intro rest log
  show (Res.ok b, _) = _
  simp

theorem Runs.bind {y : R β} {g : β → R γ} {ans ans' : List Ans} {b : β} {c : γ} {evs evs' : List Ev} (h : Runs y ans b evs) (h' : Runs (g b) ans' c evs') :
    Runs (y >>= g) (ans ++ ans') c (evs ++ evs') := by
  intro rest log
  show R.bind y g _ = _
  unfold R.bind
  rw [List.append_assoc, h]
  simp only
  rw [h', List.append_assoc]

theorem Runs.next (a : Ans) : Runs R.next [a] a [] := by
  intro rest log
  simp [R.next]

theorem Runs.emit (e : Ev) : Runs (R.emit e) [] () [e] := by
  intro rest log
  simp [R.emit]

theorem R_assoc (x : R α) (f : α → R β) (g : β → R γ) : (x >>= f) >>= g = x >>= fun a => f a >>= g := by
  funext w
  show R.bind (R.bind x f) g w = R.bind x (fun a => R.bind (f a) g) w
  unfold R.bind
  rcases x w with ⟨(a | s), w⟩ <;> rfl

theorem R_pure_bind (a : α) (f : α → R β) : (Pure.pure a : R α) >>= f = f a := rfl

/-- Without the kernel's interface nothing is asked. -/
theorem digest_user (H : Bytes → Id) (d : Bytes) : digest (.user H) d = Pure.pure (H d) := rfl

/-- What the files contain after `evs`, if the target is `ti`. -/
def upd (ti : Nat) (evs : List Ev) (d : Nat → Bytes) : Nat → Bytes := fun i => if i = ti then effect evs (d ti) else d i

theorem effect_append (a b : List Ev) (f : Bytes) : effect (a ++ b) f = effect b (effect a f) := by
  simp [effect, List.foldl_append]

theorem upd_append (ti : Nat) (a b : List Ev) (d : Nat → Bytes) : upd ti b (upd ti a d) = upd ti (a ++ b) d := by
  funext i
  unfold upd
  split
  · simp [effect_append]
  · rfl

theorem upd_nil (ti : Nat) (d : Nat → Bytes) : upd ti [] d = d := by
  funext i
  unfold upd
  split
  · next h => subst h; rfl
  · rfl

/-- The computation of Model/Race stops when the answers are `ans`, and adds the events `evs`. -/
def Halts (y : R β) (ans : List Ans) (evs : List Ev) : Prop := ∀ log, ∃ s, y ⟨ans, log⟩ = (.stop s, ⟨[], log ++ evs⟩)

theorem Halts.bind {y : R β} {g : β → R γ} {ans : List Ans} {evs : List Ev} (h : Halts y ans evs) : Halts (y >>= g) ans evs := by
  intro log
  obtain ⟨s, h⟩ := h log
  refine ⟨s, ?_⟩
  show R.bind y g _ = _
  unfold R.bind
  rw [h]

theorem Runs.halts {y : R β} {g : β → R γ} {ans ans' : List Ans} {b : β} {evs evs' : List Ev} (h : Runs y ans b evs) (h' : Halts (g b) ans' evs') :
    Halts (y >>= g) (ans ++ ans') (evs ++ evs') := by
  intro log
  obtain ⟨s, h'⟩ := h' (log ++ evs)
  refine ⟨s, ?_⟩
  show R.bind y g _ = _
  unfold R.bind
  rw [h]
  simp only
  rw [h', List.append_assoc]

theorem Halts.next {g : Ans → R γ} : Halts (R.next >>= g) [] [] := Halts.bind (fun log => ⟨.killed, by simp [R.next]⟩)

theorem Halts.stop (s : Stop) : Halts (R.stop s : R β) [] [] := fun log => ⟨s, by simp [R.stop]⟩

/-- Every end of `x` is one of `y`, with the same effect on the files. -/
def Sim (ti : Nat) (x : M α) (y : R β) (P : α → β → Prop) : Prop :=
  ∀ w, wp x (fun a w' => ∃ ans b evs, Runs y ans b evs ∧ P a b ∧ w'.data = upd ti evs w.data)
    (fun _ w' => ∃ ans evs, Halts y ans evs ∧ w'.data = upd ti evs w.data) w

variable {ti : Nat}

theorem Sim.pure {a : α} {b : β} {P : α → β → Prop} (h : P a b) : Sim ti (Pure.pure a) (Pure.pure b) P :=
  fun w => wp_pure ⟨[], b, [], Runs.pure b, h, (upd_nil ti w.data).symm⟩

theorem Sim.stop {s s' : Stop} {P : α → β → Prop} : Sim ti (M.stop s) (R.stop s') P :=
  fun w => ⟨[], [], Halts.stop s', (upd_nil ti w.data).symm⟩

theorem Sim.bind {x : M α} {y : R β} {f : α → M γ} {g : β → R δ} {P : α → β → Prop} {P' : γ → δ → Prop} (h : Sim ti x y P)
    (h' : ∀ a b, P a b → Sim ti (f a) (g b) P') : Sim ti (x >>= f) (y >>= g) P' := by
  intro w
  refine wp_bind (wp_mono (h w) (fun a w1 g1 => ?_) (fun s w1 g1 => ?_))
  · obtain ⟨ans, b, evs, r1, p1, d1⟩ := g1
    refine wp_mono (h' a b p1 w1) (fun c w2 g2 => ?_) (fun s w2 g2 => ?_)
    · obtain ⟨ans', d, evs', r2, p2, d2⟩ := g2
      exact ⟨_, d, _, r1.bind r2, p2, by rw [d2, d1, upd_append]⟩
    · obtain ⟨ans', evs', r2, d2⟩ := g2
      exact ⟨_, _, r1.halts r2, by rw [d2, d1, upd_append]⟩
  · obtain ⟨ans, evs, r1, d1⟩ := g1
    exact ⟨_, _, r1.bind, d1⟩

/-- A step of Model/Main alone, which leaves the files as they are. -/
theorem Sim.left {x : M α} {y : R β} {f : α → M γ} {Q : α → Prop} {P : γ → β → Prop} (h : ∀ w, wp x (fun a w' => w'.data = w.data ∧ Q a) (fun _ _ => False) w)
    (h' : ∀ a, Q a → Sim ti (f a) y P) : Sim ti (x >>= f) y P := by
  intro w
  refine wp_bind (wp_mono (h w) (fun a w1 g1 => ?_) (fun _ _ h => h.elim))
  refine wp_mono (h' a g1.2 w1) (fun c w2 g2 => ?_) (fun s w2 g2 => ?_)
  · obtain ⟨ans, b, evs, r, p, d⟩ := g2
    exact ⟨ans, b, evs, r, p, by rw [d, g1.1]⟩
  · obtain ⟨ans, evs, r, d⟩ := g2
    exact ⟨ans, evs, r, by rw [d, g1.1]⟩

/-- A step of Model/Race alone. -/
theorem Sim.right {x : M α} {y : R β} {g : β → R γ} {P : α → γ → Prop} {ans : List Ans} {b : β} {evs : List Ev} (h : Runs y ans b evs)
    (he : ∀ f, effect evs f = f) (h' : Sim ti x (g b) P) : Sim ti x (y >>= g) P := by
  intro w
  have hu : upd ti evs w.data = w.data := by
    funext i
    unfold upd
    split
    · next hi => rw [he, hi]
    · rfl
  refine wp_mono (h' w) (fun a w1 g1 => ?_) (fun s w1 g1 => ?_)
  · obtain ⟨ans', c, evs', r, p, d⟩ := g1
    exact ⟨_, c, _, h.bind r, p, by rw [d, ← upd_append, hu]⟩
  · obtain ⟨ans', evs', r, d⟩ := g1
    exact ⟨_, _, h.halts r, by rw [d, ← upd_append, hu]⟩

/-! ### The index -/

/-- The index in Model/Race: the same entries in some order. -/
def IdxRel (idx : Index) (es : List Entry) : Prop := IndexInv idx ∧ idx.entries.Perm es

theorem modify_perm_erase {γ : Type} (f : γ → γ) : ∀ (l : List γ) (i : Nat) (e : γ), l[i]? = some e → (l.modify i f).Perm (f e :: l.eraseIdx i)
  | [], i, e, h => by simp at h
  | x :: l, 0, e, h => by
    simp at h; subst h; simp
  | x :: l, i + 1, e, h => by
    simp only [List.getElem?_cons_succ] at h
    have := modify_perm_erase f l i e h
    simp only [List.modify_succ_cons, List.eraseIdx_cons_succ]
    exact (this.cons x).trans (List.Perm.swap _ _ _)

theorem perm_erase {γ : Type} : ∀ (l : List γ) (i : Nat) (e : γ), l[i]? = some e → l.Perm (e :: l.eraseIdx i)
  | [], i, e, h => by simp at h
  | x :: l, 0, e, h => by simp at h; subst h; simp
  | x :: l, i + 1, e, h => by
    simp only [List.getElem?_cons_succ] at h
    exact ((perm_erase l i e h).cons x).trans (List.Perm.swap _ _ _)

theorem modify_perm {γ : Type} (f : γ → γ) {l l' : List γ} {i j : Nat} {e : γ} (hp : l.Perm l') (hi : l[i]? = some e) (hj : l'[j]? = some e) :
    (l.modify i f).Perm (l'.modify j f) := by
  have h1 := (perm_erase l i e hi).symm.trans (hp.trans (perm_erase l' j e hj))
  exact (modify_perm_erase f l i e hi).trans (((List.perm_cons e).1 h1).cons (f e) |>.trans (modify_perm_erase f l' j e hj).symm)

/-- `index_query` finds an entry in both models. -/
theorem query_runs {lib : Lib} (hl : lib.Conforms) {idx : Index} {es : List Entry} (h : IdxRel idx es) (id : Id) :
    ∃ r idx' ans b, indexQuery lib idx id = (r, idx') ∧ IdxRel idx' es ∧ Runs (Race.query es id) ans b [] ∧
      (r = none → b = none) ∧ (∀ i, r = some i → ∃ e j, idx'.entries[i]? = some e ∧ b = some (j, e) ∧ es[j]? = some e) := by
  obtain ⟨r, idx', e1, e2, e3, -, -, -, -, -, e4, e5⟩ := indexQuery_spec lib hl idx id h.1
  have hp : idx'.entries.Perm es := e3.trans h.2
  cases r with
  | none =>
    refine ⟨none, idx', [.pick none], none, e1, ⟨e2, hp⟩, ?_, fun _ => rfl, (nofun)⟩
    intro rest log
    have hn : es.any (fun e => e.id == id) = false := by
      rw [List.any_eq_false]
      intro x hx
      have := e5 rfl x (h.2.mem_iff.2 hx)
      simpa using this
    simp only [Race.query, bind, R.bind, R.next, List.cons_append, List.nil_append, hn]
    simp [pure, R.pure]
  | some i =>
    obtain ⟨e, g1, g2, g3⟩ := e4 i rfl
    have hm : e ∈ es := h.2.mem_iff.1 g3
    obtain ⟨j, hj⟩ := List.mem_iff_getElem?.1 hm
    refine ⟨some i, idx', [.pick (some j)], some (j, e), e1, ⟨e2, hp⟩, ?_, (nofun), ?_⟩
    · intro rest log
      simp only [Race.query, bind, R.bind, R.next, List.cons_append, List.nil_append, hj, g2, if_true]
      simp [pure, R.pure]
    · intro i' hi'
      cases hi'
      exact ⟨e, j, g1, rfl, hj⟩

/-! ### Reading -/

theorem bufWrite_take_le (buf d : Bytes) (n : Nat) (h : d.length ≤ n) : bufWrite buf 0 (d.take n) = bufWrite buf 0 d := by
  rw [List.take_of_length_le h]

theorem sim_read (ino off len : Nat) (buf : Bytes) :
    Sim ti (preadall ino off len) (readInto len buf) (fun a b => b = (a.1, bufWrite buf 0 a.2) ∧ (a.1 = true → a.2.length = len)) := by
  intro w
  refine wp_preadall ?_ ?_ (fun _ => ⟨[], [], Halts.next, (upd_nil ti _).symm⟩)
  · intro r _ hl _
    refine ⟨[.read (slice (w.data ino) off len) true], _, [], ?_, ⟨rfl, fun _ => hl⟩, (upd_nil ti _).symm⟩
    intro rest log
    simp only [readInto, bind, R.bind, R.next, List.cons_append, List.nil_append, hl, if_true]
    simp [pure, R.pure]
  · intro r n _ hn _
    refine ⟨[.read (slice (w.data ino) off n) false], _, [], ?_, ⟨rfl, (nofun)⟩, (upd_nil ti _).symm⟩
    intro rest log
    have hle : (slice (w.data ino) off n).length ≤ len := by
      unfold slice; simp; omega
    simp only [readInto, bind, R.bind, R.next, List.cons_append, List.nil_append, bufWrite_take_le _ _ _ hle]
    simp [pure, R.pure]


/-! ### Scanning -/

/-- All entries were inserted by a scan. -/
def ScanState (s : Index × List Bool) : Prop := IndexInv s.1 ∧ ∀ e ∈ s.1.entries, e.valid = true

theorem storeInsertScan_state (s : Index × List Bool) (seg : Seg) (h : ScanState s) :
    match storeInsertScan true s seg with | .ok s' => ScanState s' | .fail s' => ScanState s' | .stop _ s' => ScanState s' := by
  obtain ⟨idx, mem⟩ := s
  obtain ⟨h1, h2⟩ := h
  unfold storeInsertScan
  by_cases h0 : seg.len = 0
  · have e : indexInsertPure idx seg.off seg.len seg.id mem = (.stop .abort, idx, mem) := by simp [indexInsertPure, h0]
    simp only [e]
    exact ⟨h1, h2⟩
  · obtain ⟨r, idx', m, e, g1, -, -, g2⟩ := indexInsertPure_spec idx seg.off seg.len seg.id mem h1 h0
    simp only [e]
    rcases g2 with ⟨g2, g3⟩ | ⟨g2, g3, -⟩
    · subst g2
      simp only
      refine ⟨orFlags_inv _ _ g1, ?_⟩
      rw [orFlags_append idx' _ _ _ g3]
      intro x hx
      simp only [List.mem_append, List.mem_singleton] at hx
      rcases hx with hx | hx
      · exact h2 x hx
      · subst hx; simp
    · subst g2 g3
      exact ⟨g1, h2⟩

theorem wp_scanInto_state (env : LEnv) (l : Loc) (idx : Index) (h : IndexInv idx) (h0 : idx.entries = []) (w : World) :
    wp (scanInto env l idx) (fun a w' => w'.data = w.data ∧ IndexInv a.2 ∧ ∀ e ∈ a.2.entries, e.valid = true) (fun _ w' => w'.data = w.data) w := by
  have := scanFd_inv ScanState (cb := storeInsertScan true)
    (by intro s seg h; have := storeInsertScan_state s seg h; revert this; cases storeInsertScan true s seg <;> exact id) env.H env.disc env.bufsiz l.p (w.data l.ino) (idx, w.mem) w.sys
    ⟨h, by rw [h0]; simp⟩
  unfold wp scanInto
  generalize scanFd env.H env.disc env.bufsiz l.p (storeInsertScan true) (w.data l.ino) (idx, w.mem) w.sys = r at this
  obtain ⟨a, ⟨i, m⟩, s⟩ := r
  cases a with
  | ok => exact ⟨rfl, this⟩
  | fail => exact ⟨rfl, this⟩
  | stop s => rfl

/-- The store in Model/Race: the same index. -/
def LocRel (l : Loc) (rl : RLoc) : Prop := ∃ idx es, l.idx = .live idx ∧ rl.idx = some es ∧ IdxRel idx es

theorem valid_map {l : List Entry} (h : ∀ e ∈ l, e.valid = true) :
    (l.map fun e => (⟨e.start, e.len, e.id⟩ : Seg)).map (fun s => (⟨s.off, s.len, true, s.id⟩ : Entry)) = l := by
  rw [List.map_map]
  conv => rhs; rw [← List.map_id l]
  apply List.map_congr_left
  intro e he
  have := h e he
  obtain ⟨a, b, c, d⟩ := e
  simp at this
  simp [this]

theorem sim_rescan (env : LEnv) (l : Loc) (rl : RLoc) :
    Sim ti (storeScan env l) (rescan rl) (fun a b => b.1 = a.1 ∧ (a.1 = true → LocRel a.2 b.2)) := by
  have fails : Runs (rescan rl) [.scan none] (false, { rl with idx := none }) [.rescan rl.num] := by
    intro rest log
    simp only [rescan, bind, R.bind, R.emit, R.next, List.cons_append, List.nil_append]
    rfl
  have works : ∀ ss, Runs (rescan rl) [.scan (some ss)] (true, { rl with idx := some (ss.map fun s => ⟨s.off, s.len, true, s.id⟩) }) [.rescan rl.num] := by
    intro ss rest log
    simp only [rescan, bind, R.bind, R.emit, R.next, List.cons_append, List.nil_append]
    rfl
  have hu : ∀ d : Nat → Bytes, upd ti [.rescan rl.num] d = d := by
    intro d
    funext i
    unfold upd
    split
    · next h => subst h; rfl
    · rfl
  have ends : Halts (rescan rl) [] [.rescan rl.num] := by
    intro log
    exact ⟨.killed, by simp [rescan, bind, R.bind, R.emit, R.next]⟩
  intro w
  unfold storeScan
  refine wp_bind (wp_emit (wp_bind (wp_fdSize ?_ ?_ (fun _ => ⟨_, _, ends, by rw [hu]⟩))))
  · intro r1 _ _
    refine wp_bind (wp_indexInit ?_ ?_ (fun _ => ⟨_, _, ends, by rw [hu]⟩))
    · intro idx m hi h0 _ _ _
      refine wp_bind (wp_mono (wp_scanInto_state env l idx hi h0 _) (fun a w1 g => ?_) (fun _ _ g => ⟨_, _, ends, by rw [hu, g]⟩))
      obtain ⟨ok, idx'⟩ := a
      obtain ⟨g1, g2, g3⟩ := g
      simp only at g1 g2 g3
      cases ok with
      | false => exact wp_pure ⟨_, _, _, fails, ⟨rfl, (nofun)⟩, by rw [hu, g1]⟩
      | true =>
        refine wp_pure ⟨_, _, _, works (idx'.entries.map fun e => ⟨e.start, e.len, e.id⟩), ⟨rfl, fun _ => ⟨idx', _, rfl, rfl, g2, ?_⟩⟩, by rw [hu, g1]⟩
        rw [valid_map g3]
    · intro m _ _ _
      exact wp_pure ⟨_, _, _, fails, ⟨rfl, (nofun)⟩, by rw [hu]⟩
  · intro r1 _ _
    exact wp_pure ⟨_, _, _, fails, ⟨rfl, (nofun)⟩, by rw [hu]⟩

/-! ### Local stores -/

theorem effect_trusted (k : Option Nat) (id : Id) (o : Nat) (d : Bytes) (f : Bytes) : effect [.trusted k id o d] f = f := rfl

theorem effect_right (k : Nat) (id : Id) (d : Bytes) (f : Bytes) : effect [.right k id d] f = f := rfl

theorem sim_localGet {env : LEnv} (hl : env.lib.Conforms) : ∀ (fuel : Nat) (l : Loc) (rl : RLoc) (id : Id) (out : Bytes), LocRel l rl →
    Sim ti (localGet env fuel l id out) (lGet (.user env.H) fuel rl id out) (fun a b => b.1 = a.1 ∧ b.2.2 = a.2.2 ∧ (a.1 ≠ none → LocRel a.2.1 b.2.1)) := by
  intro fuel
  induction fuel with
  | zero => intro l rl id out h; exact Sim.stop
  | succ fuel ih =>
    intro l rl id out h
    obtain ⟨idx, es, h1, h2, h3⟩ := h
    obtain ⟨r, idx', ans, b, q1, q2, q3, q4, q5⟩ := query_runs hl h3 id
    unfold localGet lGet
    simp only [h1, h2, q1]
    cases r with
    | none =>
      refine Sim.right q3 (fun _ => rfl) ?_
      rw [q4 rfl]
      exact Sim.pure ⟨rfl, rfl, fun _ => ⟨idx', es, rfl, h2, q2⟩⟩
    | some i =>
      obtain ⟨e, j, e1, e2, e3⟩ := q5 i rfl
      refine Sim.right q3 (fun _ => rfl) ?_
      rw [e2]
      simp only [e1, tryEntry]
      by_cases hb : e.len > out.length
      · simp only [hb, if_true]
        exact Sim.pure ⟨rfl, rfl, fun h => absurd rfl h⟩
      · simp only [hb, if_false, R_assoc]
        refine Sim.bind (sim_read l.ino e.start e.len out) (fun a b hab => ?_)
        obtain ⟨ok, d⟩ := a
        obtain ⟨rfl, hd⟩ := hab
        cases ok with
        | false => exact Sim.pure ⟨rfl, rfl, fun h => absurd rfl h⟩
        | true =>
          simp only [Bool.not_true, Bool.false_eq_true, if_false]
          by_cases hv : e.valid = true
          · simp only [hv, if_true, R_assoc]
            exact Sim.right (Runs.emit _) (fun _ => rfl) (Sim.pure ⟨rfl, rfl, fun _ => ⟨idx', es, rfl, h2, q2⟩⟩)
          · simp only [hv, Bool.false_eq_true, if_false, digest_user, R_assoc, R_pure_bind]
            by_cases hh : env.H ((bufWrite out 0 d).take e.len) = id
            · simp only [hh, if_true, R_assoc]
              refine Sim.right (Runs.emit _) (fun _ => rfl) (Sim.pure ⟨rfl, rfl, fun _ => ⟨_, _, rfl, rfl, orFlags_inv _ _ q2.1, ?_⟩⟩)
              have := modify_perm (fun e => { e with valid := true }) q2.2 e1 e3
              simpa [orFlags] using this
            · simp only [hh, if_false, R_pure_bind]
              refine Sim.bind (sim_rescan env _ rl) (fun a b hab => ?_)
              obtain ⟨ok, l'⟩ := a
              obtain ⟨ok', rl'⟩ := b
              obtain ⟨g1, g2⟩ := hab
              simp only at g1 g2
              subst g1
              cases ok' with
              | false => exact Sim.pure ⟨rfl, rfl, fun h => absurd rfl h⟩
              | true => exact ih _ _ _ _ (g2 rfl)

/-! ### The target -/

/-- The target in Model/Race. -/
def TgtRel (ti : Nat) (t : Tgt) (rt : RTgt) : Prop := t.ino = ti ∧ t.queryable = rt.queryable ∧ (t.queryable = true → IdxRel t.idx rt.idx)

theorem wp_indexInsert_rel {idx : Index} {es : List Entry} (h : IdxRel idx es) (s : Seg) (w : World) :
    wp (indexInsert idx s.off s.len s.id) (fun a w' => w'.data = w.data ∧ s.len ≠ 0 ∧
      ((a.1 ≠ none ∧ IdxRel a.2 (es ++ [⟨s.off, s.len, false, s.id⟩])) ∨ (a.1 = none ∧ IdxRel a.2 es))) (fun _ w' => w' = w ∧ s.len = 0) w := by
  by_cases h0 : s.len = 0
  · unfold wp indexInsert
    have e : indexInsertPure idx s.off s.len s.id w.mem = (.stop .abort, idx, w.mem) := by simp [indexInsertPure, h0]
    rw [e]
    exact ⟨rfl, h0⟩
  · refine wp_indexInsert h.1 ?_ ?_ (fun h => absurd h h0)
    · intro idx' m g1 _ _ g2 _
      exact ⟨rfl, h0, Or.inl ⟨(nofun), g1, by rw [g2]; exact h.2.append_right _⟩⟩
    · intro m _ _ _
      exact ⟨rfl, h0, Or.inr ⟨rfl, h⟩⟩

theorem sim_targetAdd {lib : Lib} (hl : lib.Conforms) {t : Tgt} {rt : RTgt} (h : TgtRel ti t rt) (s : Seg) :
    Sim ti (targetAdd lib t s.len s.off s.id) (tAdd rt s) (fun a b => TgtRel ti a b) := by
  obtain ⟨ino, idx, qb⟩ := t
  obtain ⟨ridx, rq⟩ := rt
  obtain ⟨h1, h2, h3⟩ := h
  simp only at h1 h2 h3
  subst h2
  unfold targetAdd tAdd
  cases qb with
  | false =>
    simp only [Bool.not_false, if_true]
    exact Sim.pure ⟨h1, rfl, h3⟩
  | true =>
    simp only [Bool.not_true, Bool.false_eq_true, if_false]
    obtain ⟨r, idx', ans, b, q1, q2, q3, q4, q5⟩ := query_runs hl (h3 rfl) s.id
    refine Sim.right q3 (fun _ => rfl) ?_
    simp only [q1]
    cases r with
    | some i =>
      obtain ⟨e, j, -, e2, -⟩ := q5 i rfl
      rw [e2]
      exact Sim.pure ⟨h1, rfl, fun _ => q2⟩
    | none =>
      rw [q4 rfl]
      intro w
      refine wp_bind (wp_mono (wp_indexInsert_rel q2 s w) (fun a w1 g => ?_) (fun _ _ g => ⟨[], [], ?_, by rw [g.1, upd_nil]⟩))
      rotate_left
      · simp only [g.2, if_true]
        exact Halts.stop _
      obtain ⟨g1, g2, g3⟩ := g
      have hdata : w1.data = upd ti [] w.data := by rw [upd_nil, g1]
      rcases g3 with ⟨-, g3⟩ | ⟨-, g3⟩
      · refine wp_pure ⟨[.room true], ⟨ridx ++ [⟨s.off, s.len, false, s.id⟩], true⟩, [], ?_, ⟨h1, rfl, fun _ => g3⟩, hdata⟩
        intro rest log
        simp only [g2, if_false, bind, R.bind, R.next, List.cons_append, List.nil_append]
        simp [pure, R.pure]
      · refine wp_pure ⟨[.room false], ⟨ridx, true⟩, [], ?_, ⟨h1, rfl, fun _ => g3⟩, hdata⟩
        intro rest log
        simp only [g2, if_false, bind, R.bind, R.next, List.cons_append, List.nil_append]
        simp [pure, R.pure]

theorem sim_targetCheck {env : Env} (hl : env.lib.Conforms) {t : Tgt} {rt : RTgt} (h : TgtRel ti t rt) (buf : Bytes) (s : Seg) :
    Sim ti (targetCheck env t buf s.len s.off s.id) (tCheck (.user env.H) rt buf s) (fun a b => b.1 = a.1 ∧ TgtRel ti a.2.1 b.2.1 ∧ b.2.2 = a.2.2) := by
  unfold targetCheck tCheck
  by_cases hb : s.len > buf.length
  · simp only [hb, if_true]
    exact fun w => ⟨[], [], Halts.stop _, (upd_nil ti w.data).symm⟩
  · simp only [hb, if_false]
    refine Sim.bind (sim_read t.ino s.off s.len buf) (fun a b hab => ?_)
    obtain ⟨ok, d⟩ := a
    obtain ⟨rfl, hd⟩ := hab
    cases ok with
    | false => exact Sim.pure ⟨rfl, h, rfl⟩
    | true =>
      simp only [Bool.not_true, Bool.false_eq_true, if_false, digest_user, R_pure_bind]
      by_cases hh : env.H ((bufWrite buf 0 d).take s.len) = s.id
      · simp only [hh, if_true, ne_eq, not_true_eq_false, if_false]
        exact Sim.bind (sim_targetAdd hl h s) (fun a b hab => Sim.pure ⟨rfl, hab, rfl⟩)
      · simp only [hh, if_false, ne_eq, not_false_eq_true, if_true]
        exact Sim.pure ⟨rfl, h, rfl⟩

theorem sim_targetGet {lib : Lib} (hl : lib.Conforms) {t : Tgt} {rt : RTgt} (h : TgtRel ti t rt) (id : Id) (out : Bytes) :
    Sim ti (targetGet lib t id out) (tGet rt id out) (fun a b => b.1 = a.1 ∧ TgtRel ti a.2.1 rt ∧ b.2 = a.2.2) := by
  obtain ⟨ino, idx, qb⟩ := t
  obtain ⟨ridx, rq⟩ := rt
  obtain ⟨h1, h2, h3⟩ := h
  simp only at h1 h2 h3
  subst h2
  unfold targetGet tGet
  cases qb with
  | false =>
    simp only [Bool.not_false, if_true]
    exact Sim.pure ⟨rfl, ⟨h1, rfl, h3⟩, rfl⟩
  | true =>
    simp only [Bool.not_true, Bool.false_eq_true, if_false]
    obtain ⟨r, idx', ans, b, q1, q2, q3, q4, q5⟩ := query_runs hl (h3 rfl) id
    have h' : TgtRel ti ⟨ino, idx', true⟩ ⟨ridx, true⟩ := ⟨h1, rfl, fun _ => q2⟩
    refine Sim.right q3 (fun _ => rfl) ?_
    simp only [q1]
    cases r with
    | none =>
      rw [q4 rfl]
      exact Sim.pure ⟨rfl, h', rfl⟩
    | some i =>
      obtain ⟨e, j, e1, e2, -⟩ := q5 i rfl
      rw [e2]
      simp only [e1]
      by_cases hb : e.len > out.length
      · simp only [hb, if_true]
        exact Sim.pure ⟨rfl, h', rfl⟩
      · simp only [hb, if_false]
        refine Sim.bind (sim_read ino e.start e.len out) (fun a b hab => ?_)
        obtain ⟨ok, d⟩ := a
        obtain ⟨rfl, hd⟩ := hab
        cases ok with
        | false => exact Sim.pure ⟨rfl, h', rfl⟩
        | true =>
          simp only [Bool.not_true, Bool.false_eq_true, if_false]
          exact Sim.right (Runs.emit _) (fun _ => rfl) (Sim.pure ⟨rfl, h', rfl⟩)

theorem sim_targetWrite {lib : Lib} (hl : lib.Conforms) {t : Tgt} {rt : RTgt} (h : TgtRel ti t rt) (buf : Bytes) (s : Seg) :
    Sim ti (targetWrite lib t buf s.len s.off s.id) (tWrite rt buf s) (fun a b => b.1 = a.1 ∧ TgtRel ti a.2 b.2) := by
  unfold targetWrite tWrite
  by_cases hb : s.len > buf.length
  · simp only [hb, if_true]
    exact fun w => ⟨[], [], Halts.stop _, (upd_nil ti w.data).symm⟩
  · simp only [hb, if_false]
    have hw : Sim ti (pwriteall t.ino (buf.take s.len) s.off)
        (R.next >>= fun a => match a with
          | .write true _ => (R.emit (.wrote s (buf.take s.len) true) >>= fun _ => Pure.pure true : R Bool)
          | .write false k => (R.emit (.wrote s ((buf.take s.len).take k) false) >>= fun _ => Pure.pure false : R Bool)
          | .cut k => (R.emit (.wrote s ((buf.take s.len).take k) false) >>= fun _ => R.stop .killed : R Bool)
          | _ => R.stop .killed) (fun a b => b = a) := by
      intro w
      have hu : ∀ (d : Bytes) (ok : Bool), (fun i => if i = t.ino then writeAt (w.data t.ino) s.off d else w.data i) = upd ti [.wrote s d ok] w.data := by
        intro d ok
        funext i
        unfold upd
        rw [h.1]
        rfl
      refine wp_pwriteall ?_ ?_ (fun r evs k _ _ _ _ _ _ _ => ⟨[.cut k], [.wrote s ((buf.take s.len).take k) false], fun log => ⟨.killed, rfl⟩, hu _ _⟩)
      · intro r evs _ _ _ _
        refine ⟨[.write true 0], true, [.wrote s (buf.take s.len) true], ?_, rfl, hu _ _⟩
        intro rest log
        rfl
      · intro r evs k _ _ _ _ _ _
        refine ⟨[.write false k], false, [.wrote s ((buf.take s.len).take k) false], ?_, rfl, hu _ _⟩
        intro rest log
        rfl
    have e : (R.next >>= fun a => match a with
        | .write true _ => (do
          R.emit (.wrote s (buf.take s.len) true)
          let t ← tAdd rt s
          return (true, t) : R (Bool × RTgt))
        | .write false k => (do
          R.emit (.wrote s ((buf.take s.len).take k) false)
          return (false, rt) : R (Bool × RTgt))
        | .cut k => (do
          R.emit (.wrote s ((buf.take s.len).take k) false)
          R.stop .killed : R (Bool × RTgt))
        | _ => R.stop .killed) =
        ((R.next >>= fun a => match a with
          | .write true _ => (R.emit (.wrote s (buf.take s.len) true) >>= fun _ => Pure.pure true : R Bool)
          | .write false k => (R.emit (.wrote s ((buf.take s.len).take k) false) >>= fun _ => Pure.pure false : R Bool)
          | .cut k => (R.emit (.wrote s ((buf.take s.len).take k) false) >>= fun _ => R.stop .killed : R Bool)
          | _ => R.stop .killed) >>= fun ok => if ok then (tAdd rt s >>= fun t => Pure.pure (true, t) : R (Bool × RTgt)) else Pure.pure (false, rt)) := by
      rw [R_assoc]
      congr 1
      funext a
      split <;> rfl
    have := Sim.bind (f := fun ok => if !ok then (Pure.pure (false, t) : M (Bool × Tgt)) else do
        let t ← targetAdd lib t s.len s.off s.id
        Pure.pure (true, t)) (P' := fun a b => b.1 = a.1 ∧ TgtRel ti a.2 b.2) hw (g := fun ok => if ok then (tAdd rt s >>= fun t => Pure.pure (true, t) : R (Bool × RTgt)) else Pure.pure (false, rt)) (by
      intro a b hab
      subst hab
      cases b with
      | false => exact Sim.pure ⟨rfl, h⟩
      | true => exact Sim.bind (sim_targetAdd hl h s) (fun a b hab => Sim.pure ⟨rfl, hab⟩))
    rw [← e] at this
    exact this

/-! ### HTTP stores -/

theorem bufWrite_all (out d : Bytes) (h : d.length = out.length) : bufWrite out 0 d = d := by
  simp [bufWrite, h]

theorem bufWrite_prefix (out o : Bytes) (n : Nat) (h1 : o.length = out.length) (h2 : n ≤ out.length) (h3 : o.drop n = out.drop n) : bufWrite out 0 (o.take n) = o := by
  simp only [bufWrite, List.take_zero, List.nil_append, Nat.zero_add, List.length_take, h1, Nat.min_eq_left h2]
  rw [← h3, List.take_append_drop]

theorem sim_httpGet (env : Env) (h : Http) (id : Id) (out : Bytes) :
    Sim ti (httpGet env h id out) (hGet (.user env.H) id out) (fun a b => b = (a.1, a.2.2)) := by
  intro w
  have hro : wp (httpGet env h id out) (fun _ w' => w'.data = w.data) (fun _ w' => w'.data = w.data) w := by
    have := ((readOnly_closed env.toLEnv).httpGet readOnly_netOps env h id out w).1
    unfold wp
    revert this
    generalize httpGet env h id out w = r
    obtain ⟨r, w'⟩ := r
    cases r with
    | ok a => exact fun h => h
    | stop s => exact fun h => h
  refine wp_mono (wp_and hro (wp_httpGet_tail (env := env) (h := h) (id := id) (out := out) (w := w))) ?_ (fun _ _ g => ⟨[], [], Halts.next, by rw [upd_nil, g.1]⟩)
  rintro ⟨r, h', out'⟩ w' ⟨hd, hl, hn⟩
  simp only at hl hn
  have hdata : w'.data = upd ti [] w.data := by rw [upd_nil, hd]
  have hle : ¬ out'.length > out.length := by omega
  rcases r with _ | _ | n
  · refine ⟨[.http out' .failed], _, [], ?_, rfl, hdata⟩
    intro rest log
    simp only [hGet, bind, R.bind, R.next, List.cons_append, List.nil_append, hle, if_false, bufWrite_all out out' hl]
    simp [pure, R.pure]
  · refine ⟨[.http out' .nothing], _, [], ?_, rfl, hdata⟩
    intro rest log
    simp only [hGet, bind, R.bind, R.next, List.cons_append, List.nil_append, hle, if_false, bufWrite_all out out' hl]
    simp [pure, R.pure]
  · obtain ⟨e1, e2, e3⟩ := hn n rfl
    have hlen : (out'.take (n + 1)).length = n + 1 := by simp; omega
    refine ⟨[.http (out'.take (n + 1)) .judged], _, [], ?_, rfl, hdata⟩
    intro rest log
    have hle2 : ¬ n + 1 > out.length := by omega
    simp only [hGet, bind, R.bind, R.next, List.cons_append, List.nil_append, hlen, hle2, if_false, bufWrite_prefix out out' (n + 1) hl e1 e3, digest_user, pure, R.pure, e2, if_true]
    simp [pure, R.pure]

/-! ### The chain -/

/-- The store in Model/Race. -/
def StoreRel : Store → RStore → Prop
  | .loc l, .loc rl => LocRel l rl
  | .http _, .http => True
  | .target, .target => True
  | _, _ => False

/-- The member of the chain in Model/Race; a store that failed is never asked again. -/
def SubRel (s : Sub Store) (rs : RSub) : Prop := rs.active = s.active ∧ (s.active = true → StoreRel s.s rs.s)

/-- The chain in Model/Race. -/
inductive SubsRel : List (Sub Store) → List RSub → Prop
  | nil : SubsRel [] []
  | cons {s : Sub Store} {rs : RSub} {subs : List (Sub Store)} {rsubs : List RSub} (h : SubRel s rs) (h' : SubsRel subs rsubs) : SubsRel (s :: subs) (rs :: rsubs)

theorem sim_storeGet {env : Env} (hl : env.lib.Conforms) {t : Tgt} {rt : RTgt} (ht : TgtRel ti t rt) {s : Store} {rs : RStore} (hs : StoreRel s rs) (id : Id) (out : Bytes) :
    Sim ti (storeGet env t s id out) (sGet (.user env.H) rt rs id out)
      (fun a b => b.1 = a.1 ∧ TgtRel ti a.2.1 rt ∧ b.2.2 = a.2.2.2 ∧ (a.1 ≠ none → StoreRel a.2.2.1 b.2.1)) := by
  unfold storeGet sGet
  cases s with
  | loc l =>
    cases rs with
    | loc rl =>
      refine Sim.bind (sim_localGet hl 2 l rl id out hs) (fun a b hab => ?_)
      obtain ⟨r, l', o⟩ := a
      obtain ⟨r', rl', o'⟩ := b
      obtain ⟨h1, h2, h3⟩ := hab
      exact Sim.pure ⟨h1, ht, h2, h3⟩
    | http => exact hs.elim
    | target => exact hs.elim
  | http h =>
    cases rs with
    | loc rl => exact hs.elim
    | http =>
      refine Sim.bind (sim_httpGet env h id out) (fun a b hab => ?_)
      obtain ⟨r, h', o⟩ := a
      subst hab
      exact Sim.pure ⟨rfl, ht, rfl, fun _ => trivial⟩
    | target => exact hs.elim
  | target =>
    cases rs with
    | loc rl => exact hs.elim
    | http => exact hs.elim
    | target =>
      refine Sim.bind (sim_targetGet hl ht id out) (fun a b hab => ?_)
      obtain ⟨r, t', o⟩ := a
      obtain ⟨r', o'⟩ := b
      obtain ⟨h1, h2, h3⟩ := hab
      exact Sim.pure ⟨h1, h2, h3, fun _ => trivial⟩

theorem sim_chainLoop {env : Env} (hl : env.lib.Conforms) (id : Id) : ∀ (subs : List (Sub Store)) (rsubs : List RSub) (i : Nat) (t : Tgt) (rt : RTgt) (out : Bytes),
    SubsRel subs rsubs → TgtRel ti t rt →
    Sim ti (chainLoop (storeGet env) id i t subs out) (cGet (.user env.H) rt id rsubs out)
      (fun a b => b.1 = a.1 ∧ TgtRel ti a.2.1 rt ∧ SubsRel a.2.2.1 b.2.1 ∧ b.2.2 = a.2.2.2) := by
  intro subs
  induction subs with
  | nil =>
    intro rsubs i t rt out hs ht
    cases hs
    exact Sim.pure ⟨rfl, ht, .nil, rfl⟩
  | cons sub subs ih =>
    intro rsubs i t rt out hs ht
    cases hs with
    | @cons _ rs _ rsubs h h' =>
      obtain ⟨h1, h2⟩ := h
      unfold chainLoop cGet
      rw [h1]
      cases ha : sub.active with
      | false =>
        simp only [Bool.not_false, if_true]
        refine Sim.bind (ih rsubs (i + 1) t rt out h' ht) (fun a b hab => ?_)
        obtain ⟨r, t', subs', o⟩ := a
        obtain ⟨r', rsubs', o'⟩ := b
        obtain ⟨g1, g2, g3, g4⟩ := hab
        exact Sim.pure ⟨g1, g2, .cons ⟨h1, h2⟩ g3, g4⟩
      | true =>
        simp only [Bool.not_true, Bool.false_eq_true, if_false]
        refine Sim.left (Q := fun _ => True) (fun w => wp_emit ⟨rfl, trivial⟩) (fun _ _ => ?_)
        refine Sim.bind (sim_storeGet hl ht (h2 ha) id out) (fun a b hab => ?_)
        obtain ⟨r, t', s', o⟩ := a
        obtain ⟨r', rs', o'⟩ := b
        obtain ⟨g1, g2, g3, g4⟩ := hab
        simp only at g1 g2 g3 g4
        subst g1 g3
        rcases r' with _ | _ | n
        · refine Sim.left (Q := fun _ => True) (fun w => wp_emit ⟨rfl, trivial⟩) (fun _ _ => ?_)
          refine Sim.bind (ih rsubs (i + 1) t' rt o' h' g2) (fun a b hab => ?_)
          obtain ⟨r, t', subs', o⟩ := a
          obtain ⟨r', rsubs', o'⟩ := b
          obtain ⟨k1, k2, k3, k4⟩ := hab
          exact Sim.pure ⟨k1, k2, .cons ⟨rfl, (nofun)⟩ k3, k4⟩
        · refine Sim.bind (ih rsubs (i + 1) t' rt o' h' g2) (fun a b hab => ?_)
          obtain ⟨r, t', subs', o⟩ := a
          obtain ⟨r', rsubs', o'⟩ := b
          obtain ⟨k1, k2, k3, k4⟩ := hab
          exact Sim.pure ⟨k1, k2, .cons ⟨rfl, fun _ => g4 (nofun)⟩ k3, k4⟩
        · exact Sim.pure ⟨rfl, g2, .cons ⟨rfl, fun _ => g4 (nofun)⟩ h', rfl⟩

/-! ### The loop -/

/-- The state of the loop in Model/Race. -/
structure CbRel (ti : Nat) (c : Cb) (rc : RCb) : Prop where
  resuming : rc.resuming = c.resuming
  last : rc.last = if c.haveLast then some c.lastId else none
  buf : rc.buf = c.buf
  tgt : TgtRel ti c.tgt rc.tgt
  subs : SubsRel c.chain.subs rc.subs

theorem sim_chainGet {env : Env} (hl : env.lib.Conforms) (id : Id) {t : Tgt} {rt : RTgt} {c : Chain Store} {rsubs : List RSub} (out : Bytes) (hs : SubsRel c.subs rsubs)
    (ht : TgtRel ti t rt) : Sim ti (chainGet (storeGet env) t c id out) (cGet (.user env.H) rt id rsubs out)
      (fun a b => b.1 = a.1 ∧ TgtRel ti a.2.1 rt ∧ SubsRel a.2.2.1.subs b.2.1 ∧ b.2.2 = a.2.2.2) := by
  unfold chainGet
  refine Sim.left (Q := fun _ => True) (fun w => wp_emit ⟨rfl, trivial⟩) (fun _ _ => ?_)
  intro w
  refine wp_bind (wp_mono (sim_chainLoop hl id c.subs rsubs 0 t rt out hs ht w) (fun a w1 g => ?_) (fun _ _ g => g))
  obtain ⟨r, t', subs', o⟩ := a
  obtain ⟨ans, b, evs, g1, g2, g3⟩ := g
  exact wp_bind (wp_emit (wp_pure ⟨ans, b, evs, g1, g2, g3⟩))

theorem sim_writePart {env : Env} (hl : env.lib.Conforms) {c : Cb} {rc : RCb} (h : CbRel ti c rc) (s : Seg) :
    Sim ti (do
        let (ok, tgt) ← targetWrite env.lib c.tgt c.buf s.len s.off s.id
        return (ok, { c with tgt := tgt }))
      (do
        let (ok, tgt) ← tWrite rc.tgt rc.buf s
        return (ok, { rc with tgt := tgt })) (fun a b => b.1 = a.1 ∧ CbRel ti a.2 b.2) := by
  rw [h.buf]
  refine Sim.bind (sim_targetWrite hl h.tgt c.buf s) (fun a b hab => ?_)
  obtain ⟨ok, t'⟩ := a
  obtain ⟨ok', rt'⟩ := b
  obtain ⟨k1, k2⟩ := hab
  exact Sim.pure ⟨k1, h.resuming, h.last, rfl, k2, h.subs⟩

theorem sim_storePart {env : Env} (hl : env.lib.Conforms) {c : Cb} {rc : RCb} (h : CbRel ti c rc) (s : Seg) :
    Sim ti (storePart env s c) (Race.store (.user env.H) rc s) (fun a b => b.1 = a.1 ∧ CbRel ti a.2 b.2) := by
  unfold storePart Race.store fetch
  have hc : (!c.haveLast || c.lastId != s.id) = true ↔ ¬ rc.last = some s.id := by
    rw [h.last]
    cases c.haveLast <;> simp
  by_cases hcc : (!c.haveLast || c.lastId != s.id) = true
  · simp only [hcc, if_true, hc.1 hcc, if_false, R_assoc]
    rw [h.buf]
    refine Sim.bind (sim_chainGet hl s.id c.buf h.subs h.tgt) (fun a b hab => ?_)
    obtain ⟨r, t', chain', o⟩ := a
    obtain ⟨r', rsubs', o'⟩ := b
    obtain ⟨g1, g2, g3, g4⟩ := hab
    simp only at g1 g2 g3 g4
    subst g1 g4
    by_cases hr : r' = some s.len
    · simp only [hr, if_true, R_pure_bind]
      exact sim_writePart (c := { c with tgt := t', chain := chain', buf := o', lastId := s.id, haveLast := true })
        (rc := { rc with subs := rsubs', buf := o', last := some s.id }) hl ⟨h.resuming, rfl, rfl, g2, g3⟩ s
    · simp only [hr, if_false, R_pure_bind]
      exact Sim.pure ⟨rfl, h.resuming, h.last, rfl, g2, g3⟩
  · have : rc.last = some s.id := Classical.not_not.1 (fun h' => hcc (hc.2 h'))
    rw [if_neg hcc, if_pos this]
    exact sim_writePart hl h s

theorem sim_entryCb {env : Env} (hl : env.lib.Conforms) {c : Cb} {rc : RCb} (h : CbRel ti c rc) (s : Seg) :
    Sim ti (entryCb env c s) (Race.cb (.user env.H) rc s) (fun a b => b.1 = a.1 ∧ CbRel ti a.2 b.2) := by
  rw [entryCb_eq]
  unfold Race.cb
  rw [h.resuming, h.buf]
  cases hr : c.resuming with
  | false =>
    simp only [Bool.false_eq_true, if_false]
    exact sim_storePart hl h s
  | true =>
    simp only [if_true]
    by_cases hb : s.len > c.buf.length
    · simp only [hb, if_true]
      exact Sim.pure ⟨rfl, h⟩
    · simp only [hb, if_false]
      refine Sim.bind (sim_targetCheck hl h.tgt c.buf s) (fun a b hab => ?_)
      obtain ⟨r, t', o⟩ := a
      obtain ⟨r', rt', o'⟩ := b
      obtain ⟨g1, g2, g3⟩ := hab
      simp only at g1 g2 g3
      subst g1 g3
      rcases r' with _ | _ | _
      · simp only [reduceCtorEq, if_false]
        exact sim_storePart (c := { c with tgt := t', buf := o', resuming := false }) (rc := { rc with tgt := rt', buf := o', resuming := false }) hl ⟨rfl, h.last, rfl, g2, h.subs⟩ s
      · simp only [Option.some.injEq, Bool.false_eq_true, if_false]
        exact sim_storePart (c := { c with tgt := t', buf := o', resuming := false }) (rc := { rc with tgt := rt', buf := o', resuming := false }) hl ⟨rfl, h.last, rfl, g2, h.subs⟩ s
      · simp only [if_true]
        exact Sim.right (Runs.emit _) (fun _ => rfl) (Sim.pure ⟨rfl, rfl, h.last, rfl, g2, h.subs⟩)

/-- What is left of the loop over the index `f`, for some regions of it, with result `o`. -/
def LoopEnd (ti : Nat) (H : Bytes → Id) (rc : RCb) (all : List Seg) (d : Nat → Bytes) (o : Bool) (w' : World) : Prop :=
  ∃ segs ans r evs rest, Race.loop (.user H) rc segs ⟨ans, []⟩ = (r, ⟨rest, evs⟩) ∧ w'.data = upd ti evs d ∧ segs <+: all ∧ (o = true → r = .ok true ∧ segs = all)

theorem Runs.loopEnd {H : Bytes → Id} {rc : RCb} {segs all : List Seg} {ans : List Ans} {b : Bool} {evs : List Ev} {d : Nat → Bytes} {w' : World} {o : Bool}
    (h : Runs (Race.loop (.user H) rc segs) ans b evs) (hd : w'.data = upd ti evs d) (hs : segs <+: all) (ho : o = true → b = true ∧ segs = all) :
    LoopEnd ti H rc all d o w' := by
  have := h [] []
  simp only [List.append_nil, List.nil_append] at this
  exact ⟨segs, ans, _, evs, _, this, hd, hs, fun g => by rw [(ho g).1]; exact ⟨rfl, (ho g).2⟩⟩

theorem wp_loop_sim {env : Env} (hl : env.lib.Conforms) {ino : Nat} {p : Params} {n : Nat} {f : Bytes} (hlen : f.length = 104 + 40 * n) (hmin : p.min < 2 ^ 32) (hmax : p.max < 2 ^ 32)
    {w : World} (hf : w.data ino = f) (hi : ino ≠ ti) {c : Cb} {rc : RCb} (h : CbRel ti c rc) :
    wp (caibxIterate ino p n (entryCb env) c) (fun a w' => LoopEnd ti env.H rc (delivered 0 (tableEntries f n)) w.data a.1 w')
      (fun _ w' => LoopEnd ti env.H rc (delivered 0 (tableEntries f n)) w.data false w') w := by
  let I : Nat → List Seg → Cb → World → Prop := fun _ done c' w' => ∃ rc' ans evs, CbRel ti c' rc' ∧ w'.data = upd ti evs w.data ∧ done <+: delivered 0 (tableEntries f n) ∧
    (∀ rest ans' b evs', Runs (Race.loop (.user env.H) rc' rest) ans' b evs' → Runs (Race.loop (.user env.H) rc (done ++ rest)) (ans ++ ans') b (evs ++ evs')) ∧
    (∀ rest ans' evs', Halts (Race.loop (.user env.H) rc' rest) ans' evs' → Halts (Race.loop (.user env.H) rc (done ++ rest)) (ans ++ ans') (evs ++ evs'))
  have hQ : ∀ (k : Nat) (done : List Seg) (c' : Cb) (w' : World) (o : Bool), (o = true → done = delivered 0 (tableEntries f n)) → I k done c' w' →
      LoopEnd ti env.H rc (delivered 0 (tableEntries f n)) w.data o w' := by
    rintro k done c' w' o ho ⟨rc', ans, evs, -, g2, g3, g4, -⟩
    have := g4 [] [] true [] (Runs.pure true)
    simp only [List.append_nil] at this
    exact this.loopEnd g2 g3 (fun h => ⟨rfl, ho h⟩)
  have hI0 : ∀ r, I 0 [] c { w with sys := r } := fun r => ⟨rc, [], [], h, (upd_nil ti w.data).symm, List.nil_prefix, fun rest ans' b evs' g => by simpa using g, fun rest ans' evs' g => by simpa using g⟩
  refine wp_caibxIterate f n hlen hmin hmax I I _ _ ?_ ?_ ?_ ?_ ?_ ?_ ?_ c w ?_ ?_ (fun r _ => hI0 r)
  · rintro k done s w' ⟨rc', ans, evs, -, g2, -⟩
    rw [g2]
    simp only [upd, hi, if_false]
    exact hf
  · intro k done s w' r _ g _
    exact g
  · intro k done s w' g
    exact g
  · intro k done s w' r _ g _ _
    exact hQ k done s { w' with sys := r } false (nofun) g
  · intro k done s w' _ g _
    exact hQ k done s { w' with sys := [] } false (nofun) g
  · rintro k done seg rest s w' hk hd ⟨rc', ans, evs, g1, g2, g3, g4, g5⟩
    have hpre : done ++ [seg] <+: delivered 0 (tableEntries f n) := by rw [hd]; exact ⟨rest, by simp⟩
    refine wp_mono (sim_entryCb hl g1 seg w') (fun a w2 k0 => ?_) (fun st w2 k0 => ?_)
    · obtain ⟨ans2, b, evs2, k1, ⟨k2, k3⟩, k4⟩ := k0
      obtain ⟨ok, c2⟩ := a
      obtain ⟨ok', rc2⟩ := b
      simp only at k2 k3
      subst k2
      have hdata : w2.data = upd ti (evs ++ evs2) w.data := by rw [k4, g2, upd_append]
      cases ok' with
      | true =>
        simp only [if_true]
        refine ⟨rc2, ans ++ ans2, evs ++ evs2, k3, hdata, hpre, ?_, ?_⟩
        · intro rest' ans' b evs' g6
          have : Runs (Race.loop (.user env.H) rc' (seg :: rest')) (ans2 ++ ans') b (evs2 ++ evs') := Runs.bind k1 g6
          have := g4 _ _ _ _ this
          simpa using this
        · intro rest' ans' evs' g6
          have : Halts (Race.loop (.user env.H) rc' (seg :: rest')) (ans2 ++ ans') (evs2 ++ evs') := Runs.halts k1 g6
          have := g5 _ _ _ this
          simpa using this
      | false =>
        simp only [Bool.false_eq_true, if_false]
        have : Runs (Race.loop (.user env.H) rc' (seg :: [])) (ans2 ++ []) false (evs2 ++ []) := Runs.bind k1 (Runs.pure false)
        have := g4 _ _ _ _ this
        simp only [List.append_nil] at this
        exact this.loopEnd hdata hpre (nofun)
    · obtain ⟨ans2, evs2, k1, k4⟩ := k0
      have hdata : w2.data = upd ti (evs ++ evs2) w.data := by rw [k4, g2, upd_append]
      have : Halts (Race.loop (.user env.H) rc' (seg :: [])) ans2 evs2 := Halts.bind k1
      obtain ⟨st', this⟩ := g5 _ _ _ this []
      exact ⟨_, _, _, _, _, this, hdata, hpre, (nofun)⟩
  · intro s w' g
    exact hQ n _ s w' true (fun _ => rfl) g
  · intro r _ _
    exact hQ 0 [] c _ false (nofun) (hI0 r)
  · intro _
    exact hQ 0 [] c _ false (nofun) (hI0 [])

end Csn.Proof
