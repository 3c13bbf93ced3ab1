import Verif.Proof.Net
import Verif.Props.Turns
import Verif.Props.Casync
import Verif.Props.Avail
/-
C64: how whole runs use the network.
-/
namespace Csn.Props
open Csn Spec Proof

/-- The target and the stores a command line names, for both programs. -/
inductive NamesTarget (posix : Bool) (argv0 : Bytes) : List Bytes → Bytes → List Bytes → Prop where
  | csn (ipath tpath : Bytes) (stores : List Bytes) : posixBasename argv0 = str "csn" → NamesTarget posix argv0 (ipath :: tpath :: stores) tpath stores
  | casync (ipath tpath : Bytes) (args stores : List Bytes) : posixBasename argv0 = str "casync" → CommandLine posix args ipath tpath stores →
      NamesTarget posix argv0 args tpath stores

theorem names_args {posix : Bool} {argv0 tpath : Bytes} {args stores : List Bytes} (h : NamesTarget posix argv0 args tpath stores) :
    targetArg argv0 args = tpath ∧ storeArgs posix argv0 args = stores := by
  cases h with
  | csn ipath _ _ h => simp [targetArg, storeArgs, h, streq]
  | casync ipath _ _ _ h h' =>
    obtain ⟨os, h1, h2⟩ := getopt_commandLine h'
    rw [targetArg, storeArgs, h, if_neg (by decide), if_neg (by decide), h2]
    exact ⟨(commandLine_paths h').2.2.1, h1.1⟩

/-- **C64** for whole runs of csn and casync, whatever system calls, allocations and servers do and however the run ends: the
network is used only while a store is asked for a chunk, and only if that store was given as a URL; all requests are then for
this chunk below this URL, at most ten, each repetition after the waiting time for it. -/
theorem C64_on_schedule {env : Env} {posix : Bool} {argv0 tpath : Bytes} {args stores : List Bytes} {w w' : World} {o : Res Bool}
    (hn : NamesTarget posix argv0 args tpath stores) (hrun : appMain env posix argv0 args w = (o, w')) :
    ∃ evs, w'.log = w.log ++ evs ∧ OnSchedule (StoreUrl env.getenv w tpath stores) evs := by
  have h := wp_appMain_net env posix argv0 args w
  rw [(names_args hn).1, (names_args hn).2] at h
  cases o with
  | ok b => exact wp_ok h hrun
  | stop s => exact wp_stopped h hrun

/-- **C64**: without a URL among the stores, the network is not used. -/
theorem C64_offline {env : Env} {posix : Bool} {argv0 tpath : Bytes} {args stores : List Bytes} {w w' : World} {o : Res Bool}
    (hn : NamesTarget posix argv0 args tpath stores) (hno : ∀ arg ∈ stores, ¬ HttpArg tpath arg) (hrun : appMain env posix argv0 args w = (o, w')) :
    ∃ evs, w'.log = w.log ++ evs ∧ ∀ e ∈ evs, isNet e = false := by
  obtain ⟨evs, h1, h2⟩ := C64_on_schedule hn hrun
  refine ⟨evs, h1, fun e he => ?_⟩
  cases hne : isNet e with
  | false => rfl
  | true =>
    obtain ⟨a, b, rfl⟩ := List.append_of_mem he
    obtain ⟨_, k, _, _, _, _, _, ⟨arg, _, _, _, g1, g2, _⟩, _⟩ := h2 a e b rfl hne
    exact absurd g2 (hno arg (List.mem_of_getElem? g1))

/-- Total of `f` over a log. -/
def sumOf (f : Event → Nat) (l : List Event) : Nat := (l.map f).sum

theorem sumOf_append (f : Event → Nat) (a b : List Event) : sumOf f (a ++ b) = sumOf f a + sumOf f b := by simp [sumOf]

theorem sumOf_filter {f : Event → Nat} (hf : ∀ e, isNet e = false → f e = 0) (l : List Event) : sumOf f (l.filter isNet) = sumOf f l := by
  induction l with
  | nil => rfl
  | cons e l ih =>
    cases h : isNet e with
    | true => rw [List.filter_cons_of_pos h]; simp only [sumOf, List.map_cons, List.sum_cons] at ih ⊢; rw [ih]
    | false => rw [List.filter_cons_of_neg (by simp [h])]; simp only [sumOf, List.map_cons, List.sum_cons, hf e h, Nat.zero_add] at ih ⊢; rw [ih]

theorem sumOf_prefix (f : Event → Nat) {a b : List Event} (h : a <+: b) : sumOf f a ≤ sumOf f b := by
  obtain ⟨c, rfl⟩ := h
  rw [sumOf_append]; omega

/-- The number of questions to stores. -/
def asksIn (l : List Event) : Nat := sumOf (fun e => match e with | .ask _ _ => 1 | _ => 0) l

theorem OnSchedule.bounded {U : Nat → Id → Bytes → Prop} {f : Event → Nat} {B : Nat} (hf : ∀ e, isNet e = false → f e = 0)
    (hB : ∀ url, sumOf f (retrySchedule url) ≤ B) : ∀ (n : Nat) (l : List Event), l.length ≤ n → OnSchedule U l → sumOf f l ≤ B * asksIn l
  | 0, l, hl, _ => by
    have : l = [] := List.length_eq_zero_iff.1 (by omega)
    subst this; simp [sumOf]
  | n + 1, l, hl, h => by
    rcases List.eq_nil_or_concat l with rfl | ⟨l, e, rfl⟩
    · simp [sumOf]
    · rw [List.concat_eq_append] at hl h ⊢
      rw [List.length_append, List.length_singleton] at hl
      cases he : isNet e with
      | false =>
        have := OnSchedule.bounded hf hB n l (by omega) (fun a x b hx => h a x (b ++ [e]) (by simp [hx]))
        have hm : B * asksIn l ≤ B * asksIn (l ++ [e]) := Nat.mul_le_mul_left _ (by rw [asksIn, asksIn, sumOf_append]; omega)
        rw [sumOf_append, show sumOf f [e] = 0 by simp [sumOf, hf e he]]
        omega
      | true =>
        obtain ⟨a1, k, id, a2, url, rfl, h1, _, h2⟩ := h l e [] (by simp) he
        have hi := OnSchedule.bounded hf hB n a1 (by simp only [List.length_append, List.length_cons] at hl; omega) (fun a x b hx => h a x (b ++ .ask k id :: a2 ++ [e]) (by simp [hx]))
        have h3 := Nat.le_trans (sumOf_prefix f h2) (hB url)
        rw [sumOf_filter hf] at h3
        have e1 : sumOf f (a1 ++ .ask k id :: a2 ++ [e]) = sumOf f a1 + sumOf f (a2 ++ [e]) := by
          rw [List.append_assoc, List.cons_append, sumOf_append]
          congr 1
          simp [sumOf, hf (.ask k id) rfl]
        have e2 : asksIn a1 + 1 ≤ asksIn (a1 ++ .ask k id :: a2 ++ [e]) := by
          rw [asksIn, asksIn, List.append_assoc, List.cons_append, sumOf_append]
          simp only [sumOf, List.map_cons, List.sum_cons]
          omega
        have e3 := Nat.mul_le_mul_left B e2
        rw [Nat.mul_add] at e3
        omega

/-- Requests in a log. -/
def requestsIn (l : List Event) : Nat := sumOf (fun e => match e with | .http _ => 1 | _ => 0) l

/-- Microseconds waited in a log. -/
def waitedIn (l : List Event) : Nat := sumOf (fun e => match e with | .sleep t => t | _ => 0) l

/-- **C64**: at most ten requests, and at most 52.6 seconds of waiting, for every time a store is asked for a chunk. -/
theorem C64_totals {env : Env} {posix : Bool} {argv0 tpath : Bytes} {args stores : List Bytes} {w w' : World} {o : Res Bool}
    (hn : NamesTarget posix argv0 args tpath stores) (hrun : appMain env posix argv0 args w = (o, w')) :
    ∃ evs, w'.log = w.log ++ evs ∧ requestsIn evs ≤ 10 * asksIn evs ∧ waitedIn evs ≤ 52600000 * asksIn evs := by
  obtain ⟨evs, h1, h2⟩ := C64_on_schedule hn hrun
  have g1 := fun f B hf hB => OnSchedule.bounded (f := f) (B := B) hf hB _ evs (Nat.le_refl _) h2
  refine ⟨evs, h1, g1 _ _ ?_ ?_, g1 _ _ ?_ ?_⟩
  · intro e he; cases e <;> first | rfl | cases he
  · intro url
    simp [sumOf, retrySchedule, List.range, List.range.loop]
  · intro e he; cases e <;> first | rfl | cases he
  · intro url
    simp [sumOf, retrySchedule, List.range, List.range.loop, backoff]

/-! ### Cases -/

/-- A run with a server that cannot be reached at first. -/
def netRun : Res Bool × World := appMain syncEnv false (str "csn") [str "i", str "t", str "s", str "http://h"] mixWorld

/-- What happens in it, writes and scans left out: the server is only asked for the chunk that the local store does not have. -/
theorem netRun_log : netRun.1 = .ok true ∧ netRun.2.log.filter (fun e => match e with | .write _ _ _ => false | .scan _ => false | _ => true) =
    [.query (syncEnv.H exC1), .ask 0 (syncEnv.H exC1), .answer (syncEnv.H exC1) (some 50),
     .query (syncEnv.H exC3), .ask 0 (syncEnv.H exC3), .ask 1 (syncEnv.H exC3),
       .http (chunkUrl (str "http://h") false (syncEnv.H exC3)), .sleep 200000, .http (chunkUrl (str "http://h") false (syncEnv.H exC3)),
       .answer (syncEnv.H exC3) (some 20),
     .query (syncEnv.H exC1), .ask 0 (syncEnv.H exC1), .answer (syncEnv.H exC1) (some 50), .stats 3 [some 2, some 1]] := by
  constructor <;> decide +kernel

attribute [local irreducible] appMain in
example : ∃ evs, netRun.2.log = mixWorld.log ++ evs ∧ OnSchedule (StoreUrl syncEnv.getenv mixWorld (str "t") [str "s", str "http://h"]) evs :=
  C64_on_schedule (.csn (str "i") (str "t") [str "s", str "http://h"] (by decide +kernel)) (show appMain _ _ _ _ _ = (netRun.1, netRun.2) from rfl)

example : ∀ arg ∈ [str "s", str "a"], ¬ HttpArg (str "t") arg := by
  intro arg h
  simp only [List.mem_cons, List.not_mem_nil, or_false] at h
  rcases h with rfl | rfl <;> exact fun h => absurd h.2 (by decide)

/-- A request while a store is being set up would be seen. -/
example (U : Nat → Id → Bytes → Prop) (url : Bytes) : ¬ OnSchedule U [.http url] := by
  intro h
  obtain ⟨a1, k, id, a2, u, h1, _⟩ := h [] _ [] rfl rfl
  simp at h1

/-- So would be a repetition without waiting. -/
example (U : Nat → Id → Bytes → Prop) (url : Bytes) (id : Id) : ¬ OnSchedule U [.ask 0 id, .http url, .http url] := by
  intro h
  obtain ⟨a1, k, id', a2, u, h1, _, _, h2⟩ := h [.ask 0 id, .http url] _ [] rfl rfl
  have : a1 = [] ∧ a2 = [.http url] := by
    cases a1 with
    | nil => simp only [List.nil_append, List.cons.injEq] at h1; exact ⟨rfl, h1.2.symm⟩
    | cons x a1 =>
      simp only [List.cons_append, List.cons.injEq] at h1
      have := h1.2
      rcases a1 with _ | ⟨y, a1⟩
      · simp at this
      · simp at this
  rw [this.2] at h2
  obtain ⟨t, ht⟩ := h2
  rw [show ([.http url] ++ [.http url] : List Event).filter isNet = [.http url, .http url] from rfl] at ht
  simp [retrySchedule, List.range, List.range.loop] at ht

end Csn.Props
