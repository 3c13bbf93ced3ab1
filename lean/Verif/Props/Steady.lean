import Verif.Proof.Logged
import Verif.Proof.Ends
import Verif.Proof.NoDiverge
import Verif.Props.SyncEx
import Verif.Props.Tool
/-
C61: interrupted system calls and short transfers make no difference.  C62: every run comes to an end.
-/
namespace Csn.Props
open Csn Spec Proof

/-- What has happened since `w`: the events `evs` (with writes split into bytes), and the files are what these writes make
of the files of `w`. -/
def Replay {α : Type} (w : World) (r : Res α × World) : Prop := ∃ evs, atoms r.2.log = atoms w.log ++ evs ∧
  (∀ i, Results (w.data i) (writesTo i evs) (r.2.data i)) ∧ r.2.kind = w.kind ∧ r.2.dir = w.dir ∧ r.2.next = w.next

theorem logged_replay {α : Type} {m : M α} (h : Logged m) (w : World) : Replay w (m w) := by
  obtain ⟨evs, h1, h2, h3, h4, h5⟩ := h w
  exact ⟨atoms evs, by rw [h1, atoms_append], fun i => results_atoms i _ _ _ (h2 i), h3, h4, h5⟩

theorem steady_ideal {α : Type} {m : M α} (h : Steady m) (w : World) :
    ∃ R : Res α × World, ∀ sys, Undisturbed sys → Towards R (m { w with sys := sys }) := by
  obtain ⟨R, _, hR⟩ := h w
  exact ⟨R, fun sys hs => (hR { w with sys := sys } ⟨rfl, rfl, rfl, rfl, rfl, rfl, rfl⟩ hs).2⟩

/-- C61 for csn and casync: for every start there is an outcome `R` such that every run without failing system calls,
however its reads and writes are split or interrupted, ends with exactly the result, files and events of `R`, or is killed
after a part of these events; in both cases the files are what the bytes written make of them. -/
theorem C61_one_outcome (env : Env) (hbuf : 0 < env.bufsiz) (posix : Bool) (argv0 : Bytes) (args : List Bytes) (w : World) :
    ∃ R : Res Bool × World, ∀ sys, Undisturbed sys →
      Towards R (appMain env posix argv0 args { w with sys := sys }) ∧
      Replay { w with sys := sys } (appMain env posix argv0 args { w with sys := sys }) := by
  obtain ⟨R, hR⟩ := steady_ideal ((steady_closed env.toLEnv hbuf).appMain trivial steady_netOps env rfl posix argv0 args) w
  exact ⟨R, fun sys hs => ⟨hR sys hs, logged_replay ((logged_closed env.toLEnv).appMain trivial logged_netOps env rfl posix argv0 args) _⟩⟩

theorem same_via {R a b : World} (h : Same R a) (g : Same R b) : Same a b :=
  ⟨g.data.trans h.data.symm, g.kind.trans h.kind.symm, g.dir.trans h.dir.symm, g.next.trans h.next.symm, g.mem.trans h.mem.symm,
    g.net.trans h.net.symm, g.log.trans h.log.symm⟩

/-- C61 for two runs: if both are let run to their end, nothing but the remaining schedules differs. -/
theorem C61_runs_agree (env : Env) (hbuf : 0 < env.bufsiz) (posix : Bool) (argv0 : Bytes) (args : List Bytes) (w : World)
    (sys sys' : List Sys) (hs : Undisturbed sys) (hs' : Undisturbed sys')
    (hend : (appMain env posix argv0 args { w with sys := sys }).1 ≠ .stop .killed)
    (hend' : (appMain env posix argv0 args { w with sys := sys' }).1 ≠ .stop .killed) :
    (appMain env posix argv0 args { w with sys := sys }).1 = (appMain env posix argv0 args { w with sys := sys' }).1 ∧
    Same (appMain env posix argv0 args { w with sys := sys }).2 (appMain env posix argv0 args { w with sys := sys' }).2 := by
  obtain ⟨R, hR⟩ := C61_one_outcome env hbuf posix argv0 args w
  rcases (hR sys hs).1 with ⟨_, h1, h2⟩ | ⟨h, _⟩
  · rcases (hR sys' hs').1 with ⟨_, g1, g2⟩ | ⟨g, _⟩
    · exact ⟨h1.trans g1.symm, same_via h2 g2⟩
    · exact absurd g hend'
  · exact absurd h hend

/-- C61 for patchdd. -/
theorem C61_one_outcome_patchdd (T : Nat) (args : List Bytes) (w : World) :
    ∃ R : Res Bool × World, ∀ sys, Undisturbed sys →
      Towards R (patchdd T args { w with sys := sys }) ∧ Replay { w with sys := sys } (patchdd T args { w with sys := sys }) := by
  obtain ⟨R, hR⟩ := steady_ideal (steady_closedB.patchdd trivial (Steady.stop _) T args) w
  exact ⟨R, fun sys hs => ⟨hR sys hs, logged_replay ((logged_closed syncEnv.toLEnv).patchdd trivial Logged.diverge T args) _⟩⟩

/-- C61 for csn-tool (which creates and truncates files as well). -/
theorem C61_one_outcome_tool (T : Tool) (args : List Bytes) (w : World) :
    ∃ R : Res Bool × World, ∀ sys, Undisturbed sys → Towards R (toolMain T args { w with sys := sys }) :=
  steady_ideal (steady_closedT.toolMain trivial T args) w

/-! ### C62 -/

theorem ends_bound {g : Prop} {α : Type} {m : M α} (h : Ends g m) (w : World) :
    ∃ N, ∀ sys, N ≤ calls sys → ((m { w with sys := sys }).1 = .stop .killed → g ∧ (m { w with sys := sys }).2.net = []) ∧
      calls sys ≤ calls (m { w with sys := sys }).2.sys + N := by
  obtain ⟨N, Rs, hG, hN⟩ := h w
  exact ⟨N, fun sys hs => ⟨fun hk => hG (outcome m w sys).1 (hN sys hs).1 hk, (hN sys hs).2⟩⟩

/-- C62 for csn and casync: from every start there is a number `N` of system calls after which the program has ended,
whatever the calls return: it takes at most `N` calls (not counting interrupted ones), it is never caught in a loop, and if
`N` calls are granted it can only be killed while it waits for a server. -/
theorem C62_app_ends (env : Env) (hq : ∀ l, (env.lib.qsort l).Perm l) (posix : Bool) (argv0 : Bytes) (args : List Bytes) (w : World) :
    ∃ N, ∀ sys, N ≤ calls sys →
      ((appMain env posix argv0 args { w with sys := sys }).1 = .stop .killed → (appMain env posix argv0 args { w with sys := sys }).2.net = []) ∧
      calls sys ≤ calls (appMain env posix argv0 args { w with sys := sys }).2.sys + N ∧
      (appMain env posix argv0 args { w with sys := sys }).1 ≠ .stop .diverge := by
  obtain ⟨N, hN⟩ := ends_bound ((ends_closed env.toLEnv).appMain trivial ends_netOps env rfl posix argv0 args) w
  exact ⟨N, fun sys hs => ⟨fun h => ((hN sys hs).1 h).2, (hN sys hs).2, (noDiv_closed env.toLEnv hq).appMain trivial noDiv_netOps env rfl posix argv0 args _⟩⟩

/-- C62 for patchdd: if `N` calls are granted, it is not killed either. -/
theorem C62_patchdd_ends {T : Nat} (hT : 0 < T) (args : List Bytes) (w : World) :
    ∃ N, ∀ sys, N ≤ calls sys → calls sys ≤ calls (patchdd T args { w with sys := sys }).2.sys + N ∧
      (patchdd T args { w with sys := sys }).1 ≠ .stop .diverge ∧ (patchdd T args { w with sys := sys }).1 ≠ .stop .killed := by
  obtain ⟨N, hN⟩ := ends_bound ((ends_closedB (g := False)).patchdd trivial (Ends.stop _ (by simp)) T args) w
  exact ⟨N, fun sys hs => ⟨(hN sys hs).2, NoDiv.patchdd hT args _, fun h => ((hN sys hs).1 h).1⟩⟩

/-- Not stopped by anything but a kill or a failing assertion. -/
def Stopless {α : Type} (m : M α) : Prop := ∀ w s, (m w).1 = .stop s → s = .killed ∨ s = .abort

theorem stopless_ok {α : Type} {m : M α} (h : ∀ w, ∃ a, (m w).1 = .ok a) : Stopless m := fun w s e => by
  obtain ⟨a, ha⟩ := h w
  rw [ha] at e
  cases e

theorem stopless_bind {α β : Type} (m : M α) (f : α → M β) (hm : Stopless m) (hf : ∀ a, Stopless (f a)) : Stopless (m >>= f) := by
  intro w s
  have hb : (m >>= f) w = (match m w with
      | (.ok a, w2) => f a w2
      | (.stop s, w2) => (.stop s, w2)) := rfl
  rw [hb]
  have h := hm w
  generalize m w = r at h
  obtain ⟨res, w1⟩ := r
  cases res with
  | ok a => exact hf a w1 s
  | stop s' => exact fun e => h s (by cases e; rfl)

theorem stopless_sysOk : Stopless M.sysOk := by
  intro w s
  rw [sysOk_eq]
  cases w.sys with
  | nil => intro e; cases e; exact Or.inl rfl
  | cons x r => cases x <;> (intro e; cases e)

theorem stopless_closed : ClosedT True @Stopless where
  pure := fun a => stopless_ok (fun _ => ⟨a, rfl⟩)
  bind := stopless_bind
  alloc := fun _ => stopless_ok (fun _ => ⟨_, rfl⟩)
  sysOk := stopless_sysOk
  openPath := fun p => by
    unfold openPath
    refine stopless_bind _ _ stopless_sysOk (fun a => ?_)
    cases a
    · exact stopless_ok (fun _ => ⟨_, rfl⟩)
    · exact stopless_ok (fun _ => ⟨_, rfl⟩)
  fdSize := fun p => by
    rw [fdSize_eq]
    refine stopless_bind _ _ stopless_sysOk (fun a => ?_)
    cases a
    · exact stopless_ok (fun _ => ⟨_, rfl⟩)
    · exact stopless_ok (fun _ => ⟨_, rfl⟩)
  preadall := fun i o n w s => by
    have key : ∀ (sys : List Sys) (got : Bytes) s, (readLoop (w.data i) o n got sys).1 = .stop s → s = .killed := by
      intro sys
      induction sys with
      | nil => intro got s; unfold readLoop; split <;> (intro e; cases e); rfl
      | cons x sys ih =>
        intro got s
        unfold readLoop
        split
        · cases x with
          | eintr => exact ih got s
          | err => intro e; cases e
          | zero => intro e; cases e
          | some k =>
            simp only
            split
            · intro e; cases e
            · split
              · intro e; cases e
              · exact ih _ s
        · intro e; cases e
    unfold preadall
    have h := key w.sys []
    generalize readLoop (w.data i) o n [] w.sys = r at h
    obtain ⟨r1, r2, r3⟩ := r
    cases r1 with
    | ok => intro e; cases e
    | fail => intro e; cases e
    | stop s' => intro e; cases e; exact Or.inl (h s rfl)
  pwriteall := fun _ i d o w s => by
    have key : ∀ (sys : List Sys) (done : Nat) (f : Bytes) (evs : List (Nat × Bytes)) s,
        (writeLoop (decide (w.kind i = .blk)) o d done f evs sys).1 = .stop s → s = .killed ∨ s = .abort := by
      intro sys
      induction sys with
      | nil => intro done f evs s; unfold writeLoop; split <;> (intro e; cases e); exact Or.inl rfl
      | cons x sys ih =>
        intro done f evs s
        unfold writeLoop
        split
        · cases x with
          | eintr => exact ih _ _ _ s
          | err => intro e; cases e
          | zero => intro e; cases e; exact Or.inr rfl
          | some k =>
            simp only
            by_cases ho : o + d.length ≥ 2 ^ 63
            · rw [if_pos ho]; intro e; cases e
            · rw [if_neg ho]
              generalize min (min (k + 1) (d.length - done)) (if decide (w.kind i = .blk) = true then f.length - (o + done) else d.length) = n
              by_cases hn : n = 0
              · rw [if_pos hn]; intro e; cases e
              · rw [if_neg hn]
                exact ih _ _ _ s
        · intro e; cases e
    unfold pwriteall
    have h := key w.sys 0 (w.data i) []
    generalize writeLoop (decide (w.kind i = .blk)) o d 0 (w.data i) [] w.sys = r at h
    obtain ⟨r1, r2, r3, r4⟩ := r
    cases r1 with
    | ok => intro e; cases e
    | fail => intro e; cases e
    | stop s' => intro e; cases e; exact h s rfl
  accessOk := fun p => by
    unfold accessOk
    refine stopless_bind _ _ stopless_sysOk (fun a => ?_)
    cases a
    · exact stopless_ok (fun _ => ⟨_, rfl⟩)
    · exact stopless_ok (fun _ => ⟨_, rfl⟩)
  creat := fun p => stopless_ok (fun w => by
    unfold creat
    cases w.dir p <;> exact ⟨_, rfl⟩)

/-- C62 for csn-tool. -/
theorem C62_tool_ends (T : Tool) (args : List Bytes) (w : World) :
    ∃ N, ∀ sys, N ≤ calls sys → calls sys ≤ calls (toolMain T args { w with sys := sys }).2.sys + N ∧
      ∀ s, (toolMain T args { w with sys := sys }).1 = .stop s → s = .abort := by
  obtain ⟨N, hN⟩ := ends_bound ((ends_closedT (g := False)).toolMain trivial T args) w
  refine ⟨N, fun sys hs => ⟨(hN sys hs).2, fun s h => ?_⟩⟩
  rcases stopless_closed.toolMain trivial T args _ s h with rfl | rfl
  · exact absurd ((hN sys hs).1 h).1 id
  · rfl

/-- C61 together with C62: if enough system calls are granted and none fails, there is only one outcome, unless a server is
waited for until the process is killed. -/
theorem C61_enough_calls (env : Env) (hbuf : 0 < env.bufsiz) (hq : ∀ l, (env.lib.qsort l).Perm l) (posix : Bool) (argv0 : Bytes) (args : List Bytes) (w : World) :
    ∃ (R : Res Bool × World) (N : Nat), ∀ sys, Undisturbed sys → N ≤ calls sys →
      ((appMain env posix argv0 args { w with sys := sys }).1 = R.1 ∧ Same R.2 (appMain env posix argv0 args { w with sys := sys }).2) ∨
      ((appMain env posix argv0 args { w with sys := sys }).1 = .stop .killed ∧ (appMain env posix argv0 args { w with sys := sys }).2.net = []) := by
  obtain ⟨R, hR⟩ := C61_one_outcome env hbuf posix argv0 args w
  obtain ⟨N, hN⟩ := C62_app_ends env hq posix argv0 args w
  refine ⟨R, N, fun sys hs hc => ?_⟩
  rcases (hR sys hs).1 with ⟨_, h1, h2⟩ | ⟨h, _⟩
  · exact Or.inl ⟨h1, h2⟩
  · exact Or.inr ⟨h, (hN sys hc).1 h⟩

/-! ### Cases -/

/-- Short reads and writes and interrupts, at least one byte at a time. -/
def shortSys : List Sys := (List.replicate 100 [Sys.eintr, .some 2, .some 12, .eintr, .some 30]).flatten

/-- Killed in the middle of writing the first chunk. -/
def killSys : List Sys := shortSys.take 52

def startWorld (sys : List Sys) : World := syncWorld (exIdx [exC1, exC2]) (List.replicate 70 9) [] sys

def appRun (sys : List Sys) : Res Bool × World := appMain syncEnv true (str "/usr/bin/csn") [str "i", str "t", str "s"] (startWorld sys)

/-- The three schedules are undisturbed; the first two runs end, with the same image but in different steps; the third has
written a part of the first chunk. -/
example : (Undisturbed manySys ∧ Undisturbed shortSys ∧ Undisturbed killSys) ∧
    (appRun manySys).1 = .ok true ∧ (appRun shortSys).1 = .ok true ∧ (appRun manySys).2.log ≠ (appRun shortSys).2.log ∧
    (appRun shortSys).2.data 3 = exC1 ++ exC2 ++ List.replicate 10 9 ∧
    (appRun killSys).1 = .stop .killed ∧ (appRun killSys).2.data 3 = exC1.take 34 ++ List.replicate 36 9 := by
  refine ⟨⟨⟨?_, ?_⟩, ⟨?_, ?_⟩, ⟨?_, ?_⟩⟩, ?_, ?_, ?_, ?_, ?_, ?_⟩ <;> decide +kernel

/-- A case of C62: among interrupts, most calls transfer nothing or fail; the run ends with calls left over. -/
example : (∀ l, (syncEnv.lib.qsort l).Perm l) ∧
    (appRun (List.replicate 20 (.some 7) ++ List.replicate 3 .eintr ++ List.replicate 20 .zero)).1 = .ok false ∧
    calls (appRun (List.replicate 20 (.some 7) ++ List.replicate 3 .eintr ++ List.replicate 20 .zero)).2.sys = 17 :=
  ⟨fun l => refLib_conforms.perm l, by decide +kernel, by decide +kernel⟩

end Csn.Props
