import Verif.Proof.Steady
import Verif.Proof.Patchdd
/-
Files change only by the writes in the log.
-/
namespace Csn.Proof
open Csn Spec

theorem writesTo_append' (i : Nat) : ∀ x y : List Event, writesTo i (x ++ y) = writesTo i x ++ writesTo i y
  | [], y => rfl
  | e :: x, y => by
    have ih := writesTo_append' i x y
    cases e <;> simp only [List.cons_append, writesTo, ih]
    split <;> rfl

/-- The events of a computation are added to the log, and carrying out its writes gives the files afterwards.  No file is
created, removed or renamed. -/
def Logged {α : Type} (m : M α) : Prop := ∀ w, ∃ evs, (m w).2.log = w.log ++ evs ∧
  (∀ i, Results (w.data i) (writesTo i evs) ((m w).2.data i)) ∧
  (m w).2.kind = w.kind ∧ (m w).2.dir = w.dir ∧ (m w).2.next = w.next

theorem Logged.bind {α β : Type} (m : M α) (f : α → M β) (hm : Logged m) (hf : ∀ a, Logged (f a)) : Logged (m >>= f) := by
  intro w
  obtain ⟨evs, h1, h2, h3, h4, h5⟩ := hm w
  have hb : (m >>= f) w = (match m w with
      | (.ok a, w2) => f a w2
      | (.stop s, w2) => (.stop s, w2)) := rfl
  rw [hb]
  generalize m w = r at h1 h2 h3 h4 h5
  obtain ⟨res, w1⟩ := r
  cases res with
  | ok a =>
    obtain ⟨evs', g1, g2, g3, g4, g5⟩ := hf a w1
    refine ⟨evs ++ evs', by rw [← List.append_assoc]; exact g1.trans (congrArg (· ++ evs') h1), fun i => ?_, g3.trans h3, g4.trans h4, g5.trans h5⟩
    rw [writesTo_append']
    exact results_append (h2 i) (g2 i)
  | stop s => exact ⟨evs, h1, h2, h3, h4, h5⟩

/-- Computations that leave files and log alone. -/
theorem Logged.quiet {α : Type} {m : M α} (h : ∀ w, (m w).2.log = w.log ∧ (m w).2.data = w.data ∧ (m w).2.kind = w.kind ∧ (m w).2.dir = w.dir ∧ (m w).2.next = w.next) :
    Logged m := by
  intro w
  obtain ⟨h1, h2, h3, h4, h5⟩ := h w
  exact ⟨[], by rw [h1, List.append_nil], fun i => by rw [h2]; rfl, h3, h4, h5⟩

theorem Logged.sysOk : Logged M.sysOk := by
  refine Logged.quiet (fun w => ?_)
  have hb : M.sysOk w = (match w.sys with
      | [] => (.stop .killed, w)
      | s :: r => ((match s with | .err => .ok false | _ => .ok true), { w with sys := r })) := by
    show M.bind M.sysNext _ w = _
    unfold M.bind M.sysNext
    cases hw : w.sys with
    | nil => rfl
    | cons x r => cases x <;> rfl
  rw [hb]
  cases w.sys with
  | nil => exact ⟨rfl, rfl, rfl, rfl, rfl⟩
  | cons x r => exact ⟨rfl, rfl, rfl, rfl, rfl⟩

theorem Logged.pure {α : Type} (a : α) : Logged (Pure.pure a : M α) := Logged.quiet (fun _ => ⟨rfl, rfl, rfl, rfl, rfl⟩)

theorem Logged.emit (e : Event) (h : Plain e) : Logged (M.emit e) := by
  intro w
  refine ⟨[e], rfl, fun i => ?_, rfl, rfl, rfl⟩
  have : writesTo i [e] = [] := by
    cases e <;> first | exact absurd h id | rfl
  rw [this]
  rfl

theorem writeLoop_results (blk : Bool) (off : Nat) (d : Bytes) : ∀ (sys : List Sys) (done : Nat) (f : Bytes) (evs : List (Nat × Bytes)),
    ∃ res f' new r, writeLoop blk off d done f evs sys = (res, f', evs ++ new, r) ∧ Results f new f'
  | [], done, f, evs => by
    unfold writeLoop
    split <;> exact ⟨_, _, [], _, by rw [List.append_nil], rfl⟩
  | x :: sys, done, f, evs => by
    unfold writeLoop
    split
    · cases x with
      | eintr => exact writeLoop_results blk off d sys done f evs
      | err => exact ⟨_, _, [], _, by rw [List.append_nil], rfl⟩
      | zero => exact ⟨_, _, [], _, by rw [List.append_nil], rfl⟩
      | some k =>
        simp only
        split
        · exact ⟨_, _, [], _, by rw [List.append_nil], rfl⟩
        · generalize min (min (k + 1) (d.length - done)) (if blk = true then f.length - (off + done) else d.length) = n
          by_cases hn : n = 0
          · rw [if_pos hn]
            exact ⟨_, _, [], _, by rw [List.append_nil], rfl⟩
          · rw [if_neg hn]
            obtain ⟨res, f', new, r, h1, h2⟩ := writeLoop_results blk off d sys (done + n)
              (writeAt f (off + done) ((d.drop done).take n)) (evs ++ [(off + done, (d.drop done).take n)])
            exact ⟨res, f', _ :: new, r, by rw [h1, List.append_assoc]; rfl, _, writeAt_patched _ _ _, h2⟩
    · exact ⟨_, _, [], _, by rw [List.append_nil], rfl⟩

theorem writesTo_self (i : Nat) : ∀ ws : List (Nat × Bytes), writesTo i (ws.map (fun e => Event.write i e.1 e.2)) = ws
  | [] => rfl
  | e :: ws => by simp [writesTo, writesTo_self i ws]

theorem writesTo_other {i j : Nat} (h : j ≠ i) : ∀ ws : List (Nat × Bytes), writesTo i (ws.map (fun e => Event.write j e.1 e.2)) = []
  | [] => rfl
  | e :: ws => by simp [writesTo, writesTo_other h ws, h]

theorem Logged.pwriteall (i : Nat) (d : Bytes) (o : Nat) : Logged (pwriteall i d o) := by
  intro w
  obtain ⟨res, f', new, r, h1, h2⟩ := writeLoop_results (decide (w.kind i = .blk)) o d w.sys 0 (w.data i) []
  rw [List.nil_append] at h1
  have e : Csn.pwriteall i d o w = (ioOut res, { w with
      data := fun j => if j = i then f' else w.data j
      sys := r
      log := w.log ++ new.map (fun e => Event.write i e.1 e.2) }) := by
    unfold Csn.pwriteall
    simp only [h1]
    cases res <;> rfl
  rw [e]
  refine ⟨_, rfl, fun j => ?_, rfl, rfl, rfl⟩
  by_cases hj : j = i
  · subst hj
    rw [writesTo_self]
    simp only [if_true]
    exact h2
  · rw [writesTo_other (fun e => hj e.symm)]
    simp only [if_neg hj]
    rfl

/-- csn, casync and patchdd change files only by the writes in the log. -/
theorem logged_closed0 (env : LEnv) : Closed0 True env @Logged where
  pure := Logged.pure
  stop := fun _ _ _ => Logged.quiet (fun _ => ⟨rfl, rfl, rfl, rfl, rfl⟩)
  bind := Logged.bind
  emit := fun e h _ _ => Logged.emit e h
  alloc := fun _ => Logged.quiet (fun _ => ⟨rfl, rfl, rfl, rfl, rfl⟩)
  insert := fun _ _ _ _ => Logged.quiet (fun _ => by rw [indexInsert_shape]; exact ⟨rfl, rfl, rfl, rfl, rfl⟩)
  sysOk := Logged.sysOk
  openPath := fun p => by
    unfold Csn.openPath
    refine Logged.bind _ _ Logged.sysOk (fun a => ?_)
    cases a
    · exact Logged.pure _
    · exact Logged.quiet (fun _ => ⟨rfl, rfl, rfl, rfl, rfl⟩)
  fdSize := fun i => by
    rw [fdSize_eq]
    refine Logged.bind _ _ Logged.sysOk (fun a => ?_)
    cases a
    · exact Logged.pure _
    · exact Logged.quiet (fun _ => ⟨rfl, rfl, rfl, rfl, rfl⟩)
  preadall := fun i o n => by
    refine Logged.quiet (fun w => ?_)
    unfold Csn.preadall
    generalize readLoop (w.data i) o n [] w.sys = r
    obtain ⟨r1, r2, r3⟩ := r
    cases r1 <;> exact ⟨rfl, rfl, rfl, rfl, rfl⟩
  pwriteall := fun _ => Logged.pwriteall
  scanInto := fun l idx => by
    refine Logged.quiet (fun w => ?_)
    unfold Csn.scanInto
    generalize scanFd env.H env.disc env.bufsiz l.p (storeInsertScan true) (w.data l.ino) (idx, w.mem) w.sys = r
    obtain ⟨r1, ⟨r2, r2'⟩, r3⟩ := r
    cases r1 <;> exact ⟨rfl, rfl, rfl, rfl, rfl⟩
  net := fun url => by
    refine Logged.quiet (fun w => ?_)
    unfold netNext
    split <;> exact ⟨rfl, rfl, rfl, rfl, rfl⟩

theorem logged_netOps : NetOps @Logged := fun e h => Logged.emit e (by cases e <;> first | exact h.elim | trivial)

theorem Logged.diverge {α : Type} : Logged (M.stop .diverge : M α) := Logged.quiet (fun _ => ⟨rfl, rfl, rfl, rfl, rfl⟩)

theorem logged_closed (env : LEnv) : Closed True env @Logged where
  toClosed0 := logged_closed0 env
  localGet := (logged_closed0 env).localGet Logged.diverge 2

theorem results_bytewise : ∀ (d : Bytes) (i o : Nat) (f g : Bytes), Patched f o d g → Results f (writesTo i (bytewise i o d)) g
  | [], i, o, f, g, h => patched_unique h (writeAt_patched f o [])
  | b :: d, i, o, f, g, h => by
    have e : g = writeAt (writeAt f o [b]) (o + 1) d := by
      have := writeAt_append f o [b] d
      simp only [List.length_singleton, List.singleton_append] at this
      rw [this]
      exact patched_unique h (writeAt_patched _ _ _)
    have : writesTo i (bytewise i o (b :: d)) = (o, [b]) :: writesTo i (bytewise i (o + 1) d) := by
      simp [bytewise, writesTo]
    rw [this]
    refine ⟨_, writeAt_patched f o [b], results_bytewise d i (o + 1) _ g ?_⟩
    rw [e]
    exact writeAt_patched _ _ _

theorem writesTo_bytewise_other {i j : Nat} (h : j ≠ i) : ∀ (d : Bytes) (o : Nat), writesTo i (bytewise j o d) = []
  | [], _ => rfl
  | b :: d, o => by simp [bytewise, writesTo, h, writesTo_bytewise_other h d]

/-- Splitting the writes does not change what they result in. -/
theorem results_atoms (i : Nat) : ∀ (evs : List Event) (f g : Bytes), Results f (writesTo i evs) g → Results f (writesTo i (atoms evs)) g
  | [], f, g, h => h
  | e :: evs, f, g, h => by
    cases e with
    | write j o d =>
      by_cases hj : j = i
      · subst hj
        simp only [writesTo, if_true] at h
        obtain ⟨h', k1, k2⟩ := h
        simp only [atoms, writesTo_append']
        exact results_append (results_bytewise d j o f h' k1) (results_atoms j evs h' g k2)
      · simp only [writesTo, if_neg hj] at h
        simp only [atoms, writesTo_append', writesTo_bytewise_other hj, List.nil_append]
        exact results_atoms i evs f g h
    | _ => exact results_atoms i evs f g h

end Csn.Proof
