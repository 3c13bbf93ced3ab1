import Verif.Proof.Named
import Verif.Spec.Named
import Verif.Props.SyncEx
import Verif.Props.Patchdd
/-
C79: only files whose paths can be found in the command line matter, and only these are written to.
-/
namespace Csn.Props
open Csn Spec Proof

/-- What is mentioned is allowed. -/
def allowed (args : List Bytes) (w : World) : Allow := ⟨Mentioned args, Reachable args w⟩

theorem rel_start {args : List Bytes} {w w' : World} (h : Alike args w w') : WRel (allowed args w) w w' w w' :=
  ⟨rfl, rfl, h.dir, fun p _ hp e => ⟨p, hp, e⟩, rfl, rfl, h.kind, h.data, fun _ _ => rfl, fun _ _ => rfl, h.sys, h.mem, h.net, [], by simp, by simp⟩

theorem reachable_dir {args : List Bytes} {w v : World} (h : v.dir = w.dir) (i : Nat) : Reachable args v i ↔ Reachable args w i := by
  unfold Reachable
  rw [h]

theorem rel_end {args : List Bytes} {w w' v v' : World} (h : Alike args w w') (r : WRel (allowed args w) w w' v v') : Alike args v v' := by
  refine ⟨fun p hp => ?_, fun i hi => r.data i ((reachable_dir r.dir1 i).1 hi), fun i hi => ?_, r.sys, r.mem, r.net⟩
  · rw [r.dir1, r.dir2]
    exact h.dir p hp
  · rw [r.kind1, r.kind2]
    exact h.kind i ((reachable_dir r.dir1 i).1 hi)

theorem alike_reachable {args : List Bytes} {w w' : World} (h : Alike args w w') (i : Nat) : Reachable args w' i ↔ Reachable args w i := by
  constructor <;> rintro ⟨p, hp, e⟩ <;> refine ⟨p, hp, ?_⟩
  · rw [h.dir p hp]; exact e
  · rw [← h.dir p hp]; exact e

theorem course {α : Type} {args : List Bytes} {w w' : World} (h : Alike args w w') {Q : α → Prop} {m : M α} (hm : Ind (allowed args w) Q m) :
    SameCourse args w w' (m w) (m w') := by
  have := hm w w' w w' (rel_start h)
  revert this
  generalize m w = x
  generalize m w' = y
  obtain ⟨x, v⟩ := x
  obtain ⟨y, v'⟩ := y
  intro g
  have : x = y ∧ WRel (allowed args w) w w' v v' := by
    cases x <;> cases y
    · exact ⟨by rw [g.1], g.2.2⟩
    · exact g.elim
    · exact g.elim
    · exact ⟨by rw [g.1], g.2⟩
  obtain ⟨rfl, r⟩ := this
  exact ⟨rfl, r.log, rel_end h r, fun i hi => ⟨r.rest1 i hi, r.rest2 i hi⟩⟩

/-- C79 for csn and casync: if two worlds agree in all files under paths that are part of an argument (and in what the system
calls and servers answer), then both runs have the same result, write the same bytes and send the same requests, and all
other files keep their contents. -/
theorem C79_other_files (env : Env) (posix : Bool) (argv0 : Bytes) (args : List Bytes) (w w' : World) (h : Alike args w w') :
    SameCourse args w w' (appMain env posix argv0 args w) (appMain env posix argv0 args w') :=
  course h (Ind.appMain env posix argv0 (fun a ha _ hq => ⟨a, ha, hq⟩))

/-- C79 for patchdd. -/
theorem C79_other_files_patchdd (T : Nat) (args : List Bytes) (w w' : World) (h : Alike args w w') :
    SameCourse args w w' (patchdd T args w) (patchdd T args w') :=
  course h (Ind.patchdd T (fun a ha => ⟨a, ha, List.infix_rfl⟩))

/-! Nothing but "i", "t" and "s" is named by a command line, whatever is in the files "a" (the same file as "t") and "b". -/

theorem named_b {p : Bytes} (h : Mentioned [str "i", str "t", str "s"] p) : p ≠ str "b" := by
  rintro rfl
  obtain ⟨a, ha, hi⟩ := h
  have : (0x62 : UInt8) ∈ a := hi.subset (by decide)
  simp only [List.mem_cons, List.not_mem_nil, or_false] at ha
  rcases ha with rfl | rfl | rfl <;> exact absurd this (by decide)

theorem named_alike (index target x y : Bytes) (sys : List Sys) :
    Alike [str "i", str "t", str "s"] (syncWorld index target x sys) (syncWorld index target y sys) := by
  refine ⟨fun _ _ => rfl, fun i hi => ?_, fun _ _ => rfl, rfl, rfl, rfl⟩
  obtain ⟨p, hp, e⟩ := hi
  have hne : i ≠ 4 := by
    rintro rfl
    simp only [syncWorld] at e
    have := named_b hp
    repeat' split at e
    all_goals first | (simp at e; done) | contradiction
  simp only [syncWorld]
  rw [if_neg hne]
  repeat' split
  all_goals rfl

/-- The file "b" is not looked at nor changed. -/
example (x y : Bytes) : SameCourse [str "i", str "t", str "s"] (syncWorld (exIdx [exC1, exC2]) [] x manySys) (syncWorld (exIdx [exC1, exC2]) [] y manySys)
    (appMain syncEnv false (str "csn") [str "i", str "t", str "s"] (syncWorld (exIdx [exC1, exC2]) [] x manySys))
    (appMain syncEnv false (str "csn") [str "i", str "t", str "s"] (syncWorld (exIdx [exC1, exC2]) [] y manySys)) :=
  C79_other_files _ _ _ _ _ _ (named_alike _ _ _ _ _)

/-- Both succeed and write the target. -/
example : (appMain syncEnv false (str "csn") [str "i", str "t", str "s"] (syncWorld (exIdx [exC1, exC2]) [] [1, 2, 3] manySys)).1 = .ok true ∧
    (appMain syncEnv false (str "csn") [str "i", str "t", str "s"] (syncWorld (exIdx [exC1, exC2]) [] [1, 2, 3] manySys)).2.data 3 = exFile := by
  constructor <;> decide +kernel

/-- A file named by an argument does matter: with "b" as index its contents decide. -/
example : (appMain syncEnv false (str "csn") [str "b", str "t", str "s"] (syncWorld (exIdx [exC1, exC2]) [] (exIdx [exC1, exC2]) manySys)).1 = .ok true ∧
    (appMain syncEnv false (str "csn") [str "b", str "t", str "s"] (syncWorld (exIdx [exC1, exC2]) [] [1, 2, 3] manySys)).1 = .ok false := by
  constructor <;> decide +kernel

example (w : World) (h : w = patchWorld (List.replicate 30 (.some 2))) :
    SameCourse [str "s", str "d"] w { w with data := fun i => if i = 7 then [1] else w.data i } (patchdd 4 [str "s", str "d"] w)
      (patchdd 4 [str "s", str "d"] { w with data := fun i => if i = 7 then [1] else w.data i }) := by
  refine C79_other_files_patchdd 4 _ _ _ ⟨fun _ _ => rfl, fun i hi => ?_, fun _ _ => rfl, rfl, rfl, rfl⟩
  obtain ⟨p, _, e⟩ := hi
  subst h
  simp only [patchWorld] at e ⊢
  have : i ≠ 7 := by
    rintro rfl
    repeat' split at e
    all_goals simp at e
  rw [if_neg this]

end Csn.Props
