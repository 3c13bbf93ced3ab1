import Verif.Proof.Turns
import Verif.Props.Keep
/-
C13 and C14 for whole runs.
-/
namespace Csn.Props
open Csn Spec Proof

/-- **C14** for whole runs of csn and casync, under whatever name, with whatever arguments and files and whatever system
calls, allocations and servers do: a store that has failed is not asked again; each store is asked for the chunk of the
latest query, once, and after all earlier stores except those that had failed before - so the other stores keep being
asked; stores fail only when asked. -/
theorem C14_whole_run {env : Env} {posix : Bool} {argv0 : Bytes} {args : List Bytes} {w w' : World} {o : Res Bool}
    (hrun : appMain env posix argv0 args w = (o, w')) :
    ∃ evs, w'.log = w.log ++ evs ∧ AliveAsked evs ∧ InTurn evs ∧ FailedWhenAsked evs := by
  have h := wp_appMain_turn env posix argv0 args w
  cases o with
  | ok b =>
    obtain ⟨evs, h1, h2⟩ := wp_ok h hrun
    exact ⟨evs, h1, h2.alive, h2.turn, h2.fails⟩
  | stop s =>
    obtain ⟨evs, h1, h2⟩ := wp_stopped h hrun
    exact ⟨evs, h1, h2.alive, h2.turn, h2.fails⟩

/-- The stores a command line names, for both programs. -/
inductive NamesStores (posix : Bool) (argv0 : Bytes) : List Bytes → List Bytes → Prop where
  | csn (ipath tpath : Bytes) (stores : List Bytes) : posixBasename argv0 = str "csn" → NamesStores posix argv0 (ipath :: tpath :: stores) stores
  | casync (ipath tpath : Bytes) (args stores : List Bytes) : posixBasename argv0 = str "casync" → CommandLine posix args ipath tpath stores →
      NamesStores posix argv0 args stores

theorem namedStores_gives {os : List Opt} {ss : List Bytes} (h : Gives os ss) : namedStores os = ss.length := by
  rw [← h.1]
  clear h
  induction os with
  | nil => rfl
  | cons o os ih => cases o <;> simp [namedStores, Opt.arg?, List.filterMap_cons, ih]

theorem storeCount_names {posix : Bool} {argv0 : Bytes} {args stores : List Bytes} (h : NamesStores posix argv0 args stores) :
    storeCount posix argv0 args = stores.length := by
  cases h with
  | csn ipath tpath _ h => simp [storeCount, h, streq]
  | casync ipath tpath _ _ h h' =>
    obtain ⟨os, h1, h2⟩ := getopt_commandLine h'
    rw [storeCount, h, if_neg (by decide), h2]
    exact namedStores_gives h1

/-- **C13** for whole runs of csn and casync, whatever system calls, allocations and servers do: every query of the chain
is answered before the next one begins (the last one may be cut short by the end of the run), by the store asked last
if the answer is data, and "not there" only after every store named on the command line was asked that had not failed
in an earlier query. -/
theorem C13_whole_run {env : Env} {posix : Bool} {argv0 : Bytes} {args stores : List Bytes} {w w' : World} {o : Res Bool}
    (hn : NamesStores posix argv0 args stores) (hrun : appMain env posix argv0 args w = (o, w')) :
    ∃ evs, w'.log = w.log ++ evs ∧ InTurn evs ∧ Answered stores.length evs ∧ Paired evs := by
  have h := wp_appMain_turn env posix argv0 args w
  rw [storeCount_names hn] at h
  cases o with
  | ok b =>
    obtain ⟨evs, h1, h2⟩ := wp_ok h hrun
    exact ⟨evs, h1, h2.turn, h2.answered, h2.paired⟩
  | stop s =>
    obtain ⟨evs, h1, h2⟩ := wp_stopped h hrun
    exact ⟨evs, h1, h2.turn, h2.answered, h2.paired⟩

/-- The arguments of the runs below. -/
example : NamesStores false (str "/usr/bin/csn") [str "i", str "t", str "t", str "s"] [str "t", str "s"] ∧
    NamesStores false (str "casync") [str "extract", str "--seed", str "t", str "--store", str "s", str "--seed-output=no", str "i", str "t"] [str "t", str "s"] :=
  ⟨.csn _ _ _ (by decide +kernel), .casync (str "i") (str "t") _ _ (by decide +kernel)
    ⟨[], _, [], _, rfl, .nil, .seed _ (.store _ (.outputEq (str "no") .nil)), rfl, by simp, fun _ => ⟨Or.inr (by decide), Or.inr (by decide)⟩⟩⟩

/-- A run in which the target fails as first store, in the middle. -/
def failRun : Res Bool × World :=
  appMain syncEnv false (str "csn") [str "i", str "t", str "t", str "s"] (syncWorld (exIdx [exC1, exC2, exC1, exC2]) [] [] (manySys.take 23 ++ .err :: manySys))

/-- What happens in it, writes and scans left out: the target is not asked any more, the other store is. -/
example : failRun.1 = .ok true ∧ failRun.2.log.filter (fun e => match e with | .write _ _ _ => false | .scan _ => false | _ => true) =
    [.query (syncEnv.H exC1), .ask 0 (syncEnv.H exC1), .ask 1 (syncEnv.H exC1), .answer (syncEnv.H exC1) (some 50),
     .query (syncEnv.H exC2), .ask 0 (syncEnv.H exC2), .ask 1 (syncEnv.H exC2), .answer (syncEnv.H exC2) (some 10),
     .query (syncEnv.H exC1), .ask 0 (syncEnv.H exC1), .failed 0, .ask 1 (syncEnv.H exC1), .answer (syncEnv.H exC1) (some 50),
     .query (syncEnv.H exC2), .ask 1 (syncEnv.H exC2), .answer (syncEnv.H exC2) (some 10), .stats 4 [some 0, some 4]] := by
  constructor <;> decide +kernel

/-- Asking a failed store again would be seen. -/
example (a b : Id) : ¬ AliveAsked [.query a, .ask 0 a, .failed 0, .ask 1 a, .query b, .ask 0 b] :=
  fun h => h [.query a, .ask 0 a, .failed 0, .ask 1 a, .query b] 0 b [] rfl (by simp)

/-- Passing over a store that works would be seen. -/
example (a b : Id) : ¬ InTurn [.query a, .ask 0 a, .ask 1 a, .query b, .ask 1 b] := by
  intro h
  obtain ⟨a1, a2, e, h1, _, h3⟩ := h [.query a, .ask 0 a, .ask 1 a, .query b] 1 b [] rfl
  rcases h3 0 (by omega) with h3 | h3
  · have : Event.failed 0 ∈ ([.query a, .ask 0 a, .ask 1 a, .query b] : List Event) := by rw [e]; simp [h3]
    simp at this
  · have hl : a2 = [] := by
      cases a2 with
      | nil => rfl
      | cons x a2 =>
        exfalso
        have hm : Event.query b ∈ x :: a2 := by
          have hne : (x :: a2).getLast? = some (.query b) := by
            have : ([.query a, .ask 0 a, .ask 1 a, .query b] : List Event).getLast? = (a1 ++ .query b :: x :: a2).getLast? := by rw [e]
            rw [List.getLast?_append, (List.getLast?_cons_cons : (Event.query b :: x :: a2).getLast? = _)] at this
            cases hg : (x :: a2).getLast? with
            | none => simp at hg
            | some y => rw [hg] at this; simpa using this.symm
          exact List.mem_of_getLast? hne
        exact h1 b hm
    rw [hl] at h3
    simp at h3

/-- A run that fails since no store has the second chunk: both stores were asked. -/
def missRun : Res Bool × World :=
  appMain syncEnv false (str "csn") [str "i", str "t", str "t", str "s"] (syncWorld (exIdx [exC1, exC3]) [] [] manySys)

example : missRun.1 = .ok false ∧ missRun.2.log.filter (fun e => match e with | .write _ _ _ => false | .scan _ => false | _ => true) =
    [.query (syncEnv.H exC1), .ask 0 (syncEnv.H exC1), .ask 1 (syncEnv.H exC1), .answer (syncEnv.H exC1) (some 50),
     .query (syncEnv.H exC3), .ask 0 (syncEnv.H exC3), .ask 1 (syncEnv.H exC3), .answer (syncEnv.H exC3) (some 0)] := by
  constructor <;> decide +kernel

/-- Giving up before the last store would be seen. -/
example (a : Id) : ¬ Answered 2 [.query a, .ask 0 a, .answer a (some 0)] := by
  intro h
  obtain ⟨a1, a2, e, _, _, h⟩ := h [.query a, .ask 0 a] a (some 0) [] rfl
  rcases h with ⟨m, _, _, _, h, _⟩ | ⟨_, h⟩
  · simp at h
  · have hm : ∀ x, x ∈ a1 ∨ x ∈ a2 → x ∈ ([.query a, .ask 0 a] : List Event) := by
      intro x hx; rw [e]; rcases hx with hx | hx <;> simp [hx]
    rcases h 1 (by omega) with h | h
    · have := hm _ (Or.inl h); simp at this
    · have := hm _ (Or.inr h); simp at this

end Csn.Props
