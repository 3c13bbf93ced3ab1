import Verif.Proof.ToolRaceSim
import Verif.Props.Tool
/-
C89: several runs of csn-tool in the same directory at the same time.
-/
namespace Csn.Props
open Csn ToolRace Spec Proof

/-- C89: runs that agree, in any order, killed or not: every byte written to an output is the one that belongs there. -/
theorem C89_bytes {jobs : Nat → ToolJob} {f want : Files} {h : List (Nat × FAcc)} (ht : ToolsTogether jobs f h) (ha : Agree jobs f want)
    {p : Nat} {o : Bytes} {off : Nat} {b : UInt8} (hm : (p, .put o off b) ∈ h) : ∃ c, want o = some c ∧ c[off]? = some b := put_want ht ha hm

/-- C89: a file that was there at first is the same in the end, whoever was asked to make it. -/
theorem C89_kept {jobs : Nat → ToolJob} {f : Files} {h : List (Nat × FAcc)} (ht : ToolsTogether jobs f h) {o c : Bytes} (hf : f o = some c) :
    filesAfter f h o = some c := kept_file ht hf

/-- C89: at every moment, a file that was not there at first is not longer than what belongs there, and has no bytes other than those that
belong there and zeros. -/
theorem C89_parts {jobs : Nat → ToolJob} {f want : Files} {h1 h2 : List (Nat × FAcc)} (ht : ToolsTogether jobs f (h1 ++ h2)) (ha : Agree jobs f want)
    {o d : Bytes} (hf : f o = none) (hd : filesAfter f h1 o = some d) :
    ∃ c, want o = some c ∧ d.length ≤ c.length ∧ ∀ (k : Nat) (b : UInt8), d[k]? = some b → b = 0 ∨ c[k]? = some b := parts ht ha rfl hf hd

/-- C89: no other files are made or changed. -/
theorem C89_others {jobs : Nat → ToolJob} {f : Files} {h : List (Nat × FAcc)} (ht : ToolsTogether jobs f h) {o : Bytes} (hn : ∀ p i id, ¬ (jobs p).Asked i id o) :
    filesAfter f h o = f o := untouched fun x hx hto => by
  obtain ⟨i, id, has⟩ := touched_asked ht hx hto
  exact hn x.1 i id has

/-- C89: if a run reports success, and no run that created one of its outputs failed or was killed, this output is complete in the end
(unless it was there at first, C89_kept). -/
theorem C89_success_partial {jobs : Nat → ToolJob} {f want : Files} {h : List (Nat × FAcc)} (ht : ToolsTogether jobs f h) (ha : Agree jobs f want)
    {p : Nat} {i : Bytes} {id : Id} {o : Bytes} (has : (jobs p).Asked i id o) (hok : (jobs p).run.1 = .ok true) (hf : f o = none)
    (hall : ∀ q : Nat, (q, .trunc o) ∈ h → (jobs q).run.1 = .ok true) : ∃ c, want o = some c ∧ filesAfter f h o = some c := by
  rcases success_there ht has hok with h1 | h1
  · rw [hf] at h1; cases h1
  · exact complete ht ha h1 hall

/-- C89: runs with the same key that are given lists of files agree, unless one of the files is what becomes of another. -/
theorem C89_lists {jobs : Nat → ToolJob} {f : Files} {conv : Id → Bytes → Bytes} (hc : ∀ p, (jobs p).conv = conv) (hn : ∀ p i out, (i, out) ∈ (jobs p).items → out = none)
    (ha : ∀ p q i o out i' out', (i, out) ∈ (jobs p).items → derivedOutput i = some o → (i', out') ∈ (jobs q).items → o ≠ i') :
    Agree jobs f (fun o => (derivedOutput o).bind fun i => (chunkIdFromPath i).bind fun id => (f i).map (conv id)) where
  apart := fun p q i id o i' out ⟨out1, m1, _, m3, _⟩ hi => by
    have := hn p i out1 m1
    subst this
    exact ha p q i o none i' out m1 (by simpa using m3) hi
  same := fun p i id o d ⟨out1, m1, m2, m3, _⟩ hd => by
    have := hn p i out1 m1
    subst this
    have hb : derivedOutput o = some i := ((C46_derived_name i).1 o (by simpa using m3)).2
    simp only [hb, Option.bind_some, m2, hd, Option.map_some, hc]

theorem performs_in_order {ε α : Type} {acc : ε → List α} : ∀ log : List ε, Performs acc log (log.flatMap acc)
  | [] => .done
  | e :: log => by rw [List.flatMap_cons]; exact .step (.refl _) (performs_in_order log)

/-- C89: the runs of Model/Tool with a list of files (in which no call fails for no reason) are among these: as long as nobody else
changes files, the result and what becomes of the files are the same. -/
theorem C89_covers {T : Tool} {ec : EncCtx} {ls : List Bytes} {w : World} (hf : Fresh w) (he : Sys.err ∉ w.sys) :
    ∃ (j : ToolJob) (h : List (Nat × FAcc)), (∀ id d, d.length < 2 ^ 32 → Converted ec.key id d (j.conv id d)) ∧ j.items = ls.map (fun l => (chomp (cstr l), none)) ∧
      ToolsTogether (fun p => if p = 0 then j else ⟨j.conv, [], []⟩) (filesOf w) h ∧
      j.run.1 = orKilled (cryptLines T ec ls w).1 ∧ filesAfter (filesOf w) h = filesOf (cryptLines T ec ls w).2 := by
  obtain ⟨ans, evs, h1, h2, h3⟩ := same_list (T := T) ls ec w hf he
  have hrun : (⟨convBuf ec.key, ls.map (fun l => (chomp (cstr l), none)), ans⟩ : ToolJob).run = (orKilled (cryptLines T ec ls w).1, evs) := h1
  refine ⟨⟨convBuf ec.key, _, ans⟩, alone evs, fun id d hd => convBuf_small hd, rfl, ⟨fun p => ?_, h2⟩, congrArg Prod.fst hrun, h3⟩
  have hdone : ∀ (p : Nat) (as : List FAcc), doneBy p (as.map (Prod.mk 0)) = if p = 0 then as else [] := by
    intro p as
    induction as with
    | nil => simp [doneBy]
    | cons a as ih =>
      simp only [List.map_cons, doneBy, ih]
      by_cases hp : p = 0
      · simp [hp]
      · simp [hp, Ne.symm hp]
  unfold alone
  rw [hdone]
  by_cases hp : p = 0
  · rw [if_pos hp, if_pos hp, hrun]
    exact performs_in_order _
  · rw [if_neg hp, if_neg hp]
    exact .done

/-! ### Examples -/

/-- A conversion. -/
def addOne (_ : Id) (d : Bytes) : Bytes := d.map (· + 1)
/-- One file, with two bytes. -/
def oneFile : Files := fun p => if p = tName then some [1, 2] else none
def tOut : Bytes := tName ++ str ".enc"

/-- Nobody. -/
def idleJob : ToolJob := ⟨addOne, [], []⟩
/-- A run that succeeds. -/
def fullJob : ToolJob := ⟨addOne, [(tName, none)], [.there false, .cipher true, .input (some [1, 2]), .cipher true, .opened true, .wrote true 0]⟩
/-- A run that is killed before it can write. -/
def cutJob : ToolJob := ⟨addOne, [(tName, none)], [.there false, .cipher true, .input (some [1, 2]), .cipher true, .opened true, .cut 0]⟩
/-- A run that finds the output. -/
def lateJob : ToolJob := ⟨addOne, [(tName, none)], [.there true]⟩

/-- Two processes. -/
def twoJobs (a b : ToolJob) : Nat → ToolJob
  | 0 => a
  | 1 => b
  | _ => idleJob

theorem tName_facts : derivedOutput tName = some tOut ∧ chunkIdFromPath tName = some tId ∧ tOut ≠ tName ∧ tOut ≠ str "-" := by decide +kernel

theorem fullJob_run : fullJob.run = (.ok true, [.look tOut false, .got tName [1, 2], .made tOut, .put tOut [2, 3] true]) := by decide +kernel
theorem cutJob_run : cutJob.run = (.stop .killed, [.look tOut false, .got tName [1, 2], .made tOut, .put tOut [] false]) := by decide +kernel
theorem lateJob_run : lateJob.run = (.ok true, [.look tOut true]) := by decide +kernel

theorem twoJobs_agree {a b : ToolJob} (ha : a.conv = addOne ∧ a.items = [(tName, none)]) (hb : b.conv = addOne ∧ b.items = [(tName, none)]) :
    Agree (twoJobs a b) oneFile (fun o => (derivedOutput o).bind fun i => (chunkIdFromPath i).bind fun id => (oneFile i).map (addOne id)) := by
  have hit : ∀ p i out, (i, out) ∈ (twoJobs a b p).items → i = tName ∧ out = none := fun p i out hm => by
    match p with
    | 0 => simp only [twoJobs, ha.2, List.mem_singleton, Prod.mk.injEq] at hm; exact hm
    | 1 => simp only [twoJobs, hb.2, List.mem_singleton, Prod.mk.injEq] at hm; exact hm
    | _ + 2 => simp [twoJobs, idleJob] at hm
  refine C89_lists (fun p => ?_) (fun p i out hm => (hit p i out hm).2) fun p q i o out i' out' m1 m2 m3 => ?_
  · match p with
    | 0 => exact ha.1
    | 1 => exact hb.1
    | _ + 2 => rfl
  · rw [(hit p i out m1).1, tName_facts.1] at m2
    cases m2
    rw [(hit q i' out' m3).1]
    exact tName_facts.2.2.1

theorem twoJobs_together {a b : ToolJob} {f : Files} {h : List (Nat × FAcc)} (ha : a.run.2.flatMap fileAccesses = doneBy 0 h) (hb : b.run.2.flatMap fileAccesses = doneBy 1 h)
    (hn : ∀ p, doneBy (p + 2) h = []) (ht : Truthful f h) : ToolsTogether (twoJobs a b) f h where
  does := fun p => match p with
    | 0 => by rw [← ha]; exact performs_in_order _
    | 1 => by rw [← hb]; exact performs_in_order _
    | p + 2 => by rw [hn]; exact .done
  truth := ht

/-- Both create the file; the first writes its second byte after the second process has emptied the file. -/
def bothHistory : List (Nat × FAcc) :=
  [(0, .look tOut false), (1, .look tOut false), (0, .read tName [1, 2]), (1, .read tName [1, 2]), (0, .trunc tOut), (0, .put tOut 0 2), (1, .trunc tOut),
   (0, .put tOut 1 3), (1, .put tOut 0 2), (1, .put tOut 1 3)]

theorem both_together : ToolsTogether (twoJobs fullJob fullJob) oneFile bothHistory :=
  twoJobs_together (by rw [fullJob_run]; rfl) (by rw [fullJob_run]; rfl) (fun p => by simp [bothHistory, doneBy])
    ⟨by decide +kernel, by decide +kernel, by decide +kernel, by decide +kernel, trivial⟩

theorem full_asked {b : ToolJob} : (twoJobs fullJob b 0).Asked tName tId tOut := ⟨none, by simp [twoJobs, fullJob], tName_facts.2.1, tName_facts.1, tName_facts.2.2.2⟩

/-- In between there was a hole in the file; in the end it is complete. -/
example : filesAfter oneFile (bothHistory.take 8) tOut = some [0, 3] ∧ filesAfter oneFile bothHistory tOut = some [2, 3] := by decide +kernel

example : filesAfter oneFile bothHistory tOut = some [2, 3] := by
  obtain ⟨c, h1, h2⟩ := C89_success_partial both_together (twoJobs_agree ⟨rfl, rfl⟩ ⟨rfl, rfl⟩) full_asked (p := 0) (congrArg Prod.fst fullJob_run) (by decide +kernel)
    fun q _ => match q with
      | 0 => congrArg Prod.fst fullJob_run
      | 1 => congrArg Prod.fst fullJob_run
      | _ + 2 => rfl
  rw [h2, ← h1]
  decide +kernel

example : filesAfter oneFile bothHistory tName = some [1, 2] := C89_kept both_together (by decide +kernel)

/-- The first process makes the file and reports success, then the second one, which had looked before, empties it and is killed. -/
def lostHistory : List (Nat × FAcc) :=
  [(0, .look tOut false), (1, .look tOut false), (0, .read tName [1, 2]), (1, .read tName [1, 2]), (0, .trunc tOut), (0, .put tOut 0 2), (0, .put tOut 1 3), (1, .trunc tOut)]

/-- The first process finds the file that the second one is making, and reports success; the second one is killed. -/
def earlyHistory : List (Nat × FAcc) := [(1, .look tOut false), (1, .read tName [1, 2]), (1, .trunc tOut), (0, .look tOut true)]

/-- In Model/Tool: a run that has its file to make. -/
example : Fresh (tWorld (List.replicate 20 (.some 100))) ∧ Sys.err ∉ (tWorld (List.replicate 20 (.some 100))).sys := ⟨tWorld_fresh _, by decide⟩

/-- C89: "the outputs of a run that reports success are complete" is wrong: what a run has written may be lost again
because of another run for the same file, and what a run finds may never be completed. -/
theorem C89_refuted : ∃ f want : Files, ∃ o c : Bytes, f o = none ∧ want o = some c ∧ c ≠ [] ∧
    (∃ jobs h, ToolsTogether jobs f h ∧ Agree jobs f want ∧ (∃ i id, (jobs 0).Asked i id o) ∧ (jobs 0).run.1 = .ok true ∧
      (0, .trunc o) ∈ h ∧ filesAfter f h o = some []) ∧
    (∃ jobs h, ToolsTogether jobs f h ∧ Agree jobs f want ∧ (∃ i id, (jobs 0).Asked i id o) ∧ (jobs 0).run.1 = .ok true ∧
      (0, .trunc o) ∉ h ∧ filesAfter f h o = some []) := by
  refine ⟨oneFile, (fun o => (derivedOutput o).bind fun i => (chunkIdFromPath i).bind fun id => (oneFile i).map (addOne id)), tOut, [2, 3], by decide +kernel, by decide +kernel,
    (nofun), ⟨twoJobs fullJob cutJob, lostHistory, ?_, twoJobs_agree ⟨rfl, rfl⟩ ⟨rfl, rfl⟩, ⟨_, _, full_asked⟩, congrArg Prod.fst fullJob_run, by decide +kernel, by decide +kernel⟩,
    ⟨twoJobs lateJob cutJob, earlyHistory, ?_, twoJobs_agree ⟨rfl, rfl⟩ ⟨rfl, rfl⟩,
      ⟨tName, tId, none, by simp [twoJobs, lateJob], tName_facts.2.1, tName_facts.1, tName_facts.2.2.2⟩, congrArg Prod.fst lateJob_run, by decide +kernel, by decide +kernel⟩⟩
  · exact twoJobs_together (by rw [fullJob_run]; rfl) (by rw [cutJob_run]; rfl) (fun p => by simp [lostHistory, doneBy])
      ⟨by decide +kernel, by decide +kernel, by decide +kernel, by decide +kernel, trivial⟩
  · exact twoJobs_together (by rw [lateJob_run]; rfl) (by rw [cutJob_run]; rfl) (fun p => by simp [earlyHistory, doneBy])
      ⟨by decide +kernel, by decide +kernel, by decide +kernel, trivial⟩

end Csn.Props
