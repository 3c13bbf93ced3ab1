import Verif.Proof.Stats
import Verif.Props.Turns
import Verif.Props.Casync
/-
C63: what is printed at the end.
-/
namespace Csn.Props
open Csn Spec Proof

theorem Reported.more {n m m' : Nat} {evs : List Event} (h : Reported n m evs) (hm : n ≤ m) (hm' : n ≤ m') : Reported n m' evs := by
  obtain ⟨l, s, hs, h1, h2, h3, h4⟩ := h
  refine ⟨l, s, hs, h1, h2, h3, fun k hk => ?_⟩
  rw [h4 k hk, if_pos (by omega), if_pos (by omega)]

/-- **C63** for csn, whatever files, system calls, allocations and servers do: a run that succeeds prints its statistics at
the end and nowhere else, with the number of queries of the chain, and for each store given how many queries this store
answered with data (all modulo 2^32). -/
theorem C63_csn {env : Env} {posix : Bool} {argv0 ipath tpath : Bytes} {stores : List Bytes} {w w' : World}
    (h0 : posixBasename argv0 = str "csn") (hrun : appMain env posix argv0 (ipath :: tpath :: stores) w = (.ok true, w')) :
    ∃ evs, w'.log = w.log ++ evs ∧ Reported stores.length stores.length evs := by
  have h := wp_ok (wp_appMain_stats env posix argv0 (ipath :: tpath :: stores) w) hrun
  rw [storeCount_names (.csn ipath tpath stores h0)] at h
  obtain ⟨evs, h1, h2⟩ := h.1 rfl
  refine ⟨evs, h1, Reported.more h2 ?_ (Nat.le_refl _)⟩
  simp [slotCount, h0, streq]

/-- **C63** (partial) for casync: the same, except that only the counters of the first stores start at 0; the others are
undefined and printed as such (`C63_refuted`). -/
theorem C63_casync_partial {env : Env} {posix : Bool} {argv0 ipath tpath : Bytes} {args stores : List Bytes} {w w' : World}
    (h0 : posixBasename argv0 = str "casync") (hc : CommandLine posix args ipath tpath stores) (hrun : appMain env posix argv0 args w = (.ok true, w')) :
    ∃ evs, w'.log = w.log ++ evs ∧ Reported stores.length ((args.length - 3) / 2 + 1) evs := by
  have h := wp_ok (wp_appMain_stats env posix argv0 args w) hrun
  rw [storeCount_names (.casync ipath tpath args stores h0 hc), slotCount, h0, if_neg (by decide)] at h
  exact h.1 rfl

/-- **C63** (partial) for casync, if stores are given as two words each or there are few of them. -/
theorem C63_casync_exact_partial {env : Env} {posix : Bool} {argv0 ipath tpath : Bytes} {args stores : List Bytes} {w w' : World}
    (h0 : posixBasename argv0 = str "casync") (hc : CommandLine posix args ipath tpath stores) (hfew : 2 * stores.length ≤ args.length - 1)
    (hrun : appMain env posix argv0 args w = (.ok true, w')) :
    ∃ evs, w'.log = w.log ++ evs ∧ Reported stores.length stores.length evs := by
  obtain ⟨evs, h1, h2⟩ := C63_casync_partial h0 hc hrun
  exact ⟨evs, h1, Reported.more h2 (by omega) (Nat.le_refl _)⟩

/-- **C63**: a run that fails, is killed, aborts or waits for ever prints none. -/
theorem C63_otherwise {env : Env} {posix : Bool} {argv0 : Bytes} {args : List Bytes} {w w' : World} {o : Res Bool}
    (hrun : appMain env posix argv0 args w = (o, w')) (ho : o ≠ .ok true) (hub : o ≠ .stop .ub) : ∃ evs, w'.log = w.log ++ evs ∧ Unreported evs := by
  cases o with
  | ok b => exact (wp_ok (wp_appMain_stats env posix argv0 args w) hrun).2 ho hub
  | stop s => exact (wp_stopped (wp_appMain_stats env posix argv0 args w) hrun).2 ho hub

theorem runs_head (a : Id) : ∀ l, (runs (a :: l)).head? = some a
  | [] => rfl
  | b :: l => by
    unfold runs
    split
    · next h => subst h; exact runs_head a l
    · rfl

/-- **C63**: the number of skipped chunks printed by a run that succeeds is the length of a prefix of regions that matched
the target from the start, none of which were asked for or written: the first query is for the region behind.  If no
system call failed, and offsets stay below 2^63, it is the length of the longest such prefix. -/
theorem C63_skipped {env : Env} {w w' : World} {ipath tpath : Bytes} {stores : List Bytes} {ti : Nat} {segs : List Seg}
    (hsc : Scene env w ipath tpath stores) (hd : Describes w ipath segs) (ht : w.dir tpath = some ti)
    (hrun : csnMain env (ipath :: tpath :: stores) w = (.ok true, w')) :
    ∃ n evs q hs, n ≤ segs.length ∧ w'.log = w.log ++ evs ++ (if n = 0 then [] else [.skipped n]) ++ [.stats q hs] ∧
      (∀ s ∈ segs.take n, Matches env.H (w.data ti) s) ∧ (∀ s ∈ segs[n]?, (queriesOf evs).head? = some s.id) ∧
      (∀ e ∈ writesOf evs, total (segs.take n) ≤ e.1) ∧
      (Clean w.sys → total segs < 2 ^ 63 → ∀ s ∈ segs[n]?, ¬ Matches env.H (w.data ti) s) := by
  have h := wp_ok (run_told hsc) hrun
  obtain ⟨tino, segs', hb, pre, post, hs, evs, q, hh, hl⟩ := h rfl
  obtain rfl := Describes.unique hb.idx hd
  have := hb.tgt
  rw [ht] at this
  cases this
  obtain ⟨evs', k1, k2, k3, k4, k5⟩ := hs.log
  have he : evs' = evs ++ told pre.length q hh := by
    rw [hl, List.append_assoc] at k1
    exact (List.append_cancel_left k1).symm
  have htell : ∀ e ∈ told pre.length q hh, TellEv e := by
    intro e he
    unfold told at he
    rcases List.mem_append.1 he with he | he
    · split at he
      · simp at he
      · simp only [List.mem_singleton] at he; exact Or.inl ⟨_, he⟩
    · simp only [List.mem_singleton] at he; exact Or.inr ⟨_, _, he⟩
  obtain ⟨t1, t2⟩ := tellEv_none _ htell
  rw [he, writesOf_append, t1, List.append_nil] at k3
  rw [he, queriesOf_append, t2, List.append_nil] at k4
  have hsplit := hs.split
  simp only [List.append_nil] at hsplit k4
  subst hsplit
  refine ⟨pre.length, evs, q, hh, by simp, by rw [hl, told]; simp, ?_, ?_, ?_, ?_⟩
  · rw [List.take_left']
    · exact fun s hs' => (hs.skip s hs').1
    · rfl
  · intro s hs'
    rw [List.getElem?_append_right (Nat.le_refl _), Nat.sub_self] at hs'
    cases post with
    | nil => simp at hs'
    | cons x post =>
      simp only [List.getElem?_cons_zero, Option.mem_def, Option.some.injEq] at hs'
      subst hs'
      rw [k4]
      simp only [List.take_zero, List.append_nil, List.map_cons]
      exact runs_head _ _
  · rw [List.take_left' rfl]
    exact fun e he => (contig_ge k3 e he).1
  · intro hc h63 s hs'
    rw [List.getElem?_append_right (Nat.le_refl _), Nat.sub_self] at hs'
    cases post with
    | nil => simp at hs'
    | cons x post =>
      simp only [List.getElem?_cons_zero, Option.mem_def, Option.some.injEq] at hs'
      subst hs'
      rcases hs.first x post (by simp) with h | h | h
      · exact h
      · exact absurd hc h
      · have hok := hs.offs (Describes.segsOk hd) (rfl : pre ++ x :: post = pre ++ x :: post)
        omega

/-- A start in which the first chunk is already there. -/
def halfWorld : World := syncWorld backIdx (exC1 ++ [1, 2, 3]) [] manySys

/-- A case of `C63_csn`, with two stores. -/
def halfRun : Res Bool × World := appMain syncEnv false (str "/usr/bin/csn") [str "i", str "t", str "t", str "s"] halfWorld

/-- The target answers for the first chunk, "s" for the second. -/
theorem halfRun_log : halfRun.1 = .ok true ∧ halfRun.2.log.filter (fun e => match e with | .write _ _ _ => false | .scan _ => false | _ => true) =
    [.query (syncEnv.H exC2), .ask 0 (syncEnv.H exC2), .ask 1 (syncEnv.H exC2), .answer (syncEnv.H exC2) (some 10),
     .query (syncEnv.H exC1), .ask 0 (syncEnv.H exC1), .answer (syncEnv.H exC1) (some 50), .skipped 1, .stats 2 [some 1, some 1]] := by
  constructor <;> decide +kernel

attribute [local irreducible] appMain in
example : ∃ evs, halfRun.2.log = halfWorld.log ++ evs ∧ Reported 2 2 evs :=
  C63_csn (stores := [str "t", str "s"]) (by decide +kernel) (pair_eq halfRun_log.1)

/-- The same for casync, with two words per store. -/
example : (appMain syncEnv false (str "casync") rauc halfWorld).1 = .ok true ∧ CommandLine false rauc (str "i") (str "t") [str "t", str "s"] ∧ 2 * 2 ≤ rauc.length - 1 :=
  ⟨by decide +kernel, rauc_commandLine, by decide⟩

/-- A case of `C63_skipped`. -/
example : Scene syncEnv halfWorld (str "i") (str "t") [str "t", str "s"] ∧ Describes halfWorld (str "i") [⟨0, 50, syncEnv.H exC1⟩, ⟨50, 10, syncEnv.H exC2⟩, ⟨60, 50, syncEnv.H exC1⟩] ∧
    halfWorld.dir (str "t") = some 3 ∧ Clean halfWorld.sys ∧ (csnMain syncEnv [str "i", str "t", str "t", str "s"] halfWorld).1 = .ok true := by
  refine ⟨syncWorld_scene backIdx_wf _ (by simp) (by simp), ?_, rfl, ⟨by decide +kernel, by decide +kernel⟩, by decide +kernel⟩
  have h := syncWorld_describes (target := exC1 ++ [1, 2, 3]) (side := []) (sys := manySys) backIdx_wf
  rw [show delivered 0 (tableEntries backIdx 3) = [⟨0, 50, syncEnv.H exC1⟩, ⟨50, 10, syncEnv.H exC2⟩, ⟨60, 50, syncEnv.H exC1⟩] by decide +kernel] at h
  exact h

theorem missRun_fails : missRun.1 = .ok false := by decide +kernel

attribute [local irreducible] appMain in
/-- A failing run prints nothing, though the chain was asked. -/
example : ∃ evs, missRun.2.log = (syncWorld (exIdx [exC1, exC3]) [] [] manySys).log ++ evs ∧ Unreported evs :=
  C63_otherwise (pair_eq missRun_fails) (by simp) (by simp)

/-- A wrong count would be seen. -/
example (a : Id) : ¬ Reported 2 2 [.query a, .ask 0 a, .ask 1 a, .answer a (some 10), .stats 1 [some 1, some 0]] := by
  rintro ⟨l, s, hs, h1, h2, _, h4⟩
  have e : hs = [some 1, some 0] ∧ (l ++ if s = 0 then [] else [.skipped s]) = [.query a, .ask 0 a, .ask 1 a, .answer a (some 10)] := by
    have h1 : ([.query a, .ask 0 a, .ask 1 a, .answer a (some 10)] : List Event) ++ [.stats 1 [some 1, some 0]] = _ := h1
    obtain ⟨g1, g2⟩ := List.append_inj' h1 rfl
    simp only [List.cons.injEq, Event.stats.injEq, and_true] at g2
    exact ⟨g2.2.symm, g1.symm⟩
  obtain ⟨rfl, e⟩ := e
  by_cases hs : s = 0
  · rw [if_pos hs, List.append_nil] at e
    have := h4 0 (by omega)
    rw [e] at this
    simp [hitCount] at this
  · rw [if_neg hs] at e
    have : Event.skipped s ∈ ([.query a, .ask 0 a, .ask 1 a, .answer a (some 10)] : List Event) := by rw [← e]; simp
    simp at this

/-- **C63 refuted in full**: with three stores of one word each, casync prints the third counter uninitialised. -/
theorem C63_refuted : ∃ env w args ipath tpath stores w', CommandLine false args ipath tpath stores ∧ Scene env w ipath tpath stores ∧
    appMain env false (str "casync") args w = (.ok true, w') ∧ ¬ ∃ evs, w'.log = w.log ++ evs ∧ Reported stores.length stores.length evs := by
  refine ⟨syncEnv, okWorld, three, str "i", str "t", [str "s", str "s", str "s"], (appMain syncEnv false (str "casync") three okWorld).2, three_commandLine,
    syncWorld_scene okIdx_wf _ (by simp) (by simp), pair_eq (by decide +kernel), ?_⟩
  rintro ⟨evs, h1, l, s, hs, h2, _, _, h4⟩
  have hl : (appMain syncEnv false (str "casync") three okWorld).2.log.getLast? = some (.stats 2 [some 2, some 0, none]) := by decide +kernel
  rw [h1, h2, ← List.append_assoc, List.getLast?_append] at hl
  simp only [List.getLast?_singleton, Option.some_or, Option.some.injEq, Event.stats.injEq] at hl
  have := h4 2 (by simp)
  rw [hl.2] at this
  simp at this

end Csn.Props
