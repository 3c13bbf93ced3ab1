import Verif.Proof.Keep
import Verif.Proof.Casync
import Verif.Props.SyncEx
/-
C35: the target as first store.
-/
namespace Csn.Props
open Csn Spec Proof

/-- **C35**: with the target as first store, in every run - whatever system calls, allocations and servers do and whatever
the outcome - as long as the target is in use, a later store is only asked for a chunk whose ID does not occur among the
regions that are on the target so far, and no later store is asked for the same ID twice.  The target is only taken out of
use if a system call fails or offsets reach 2^63 (and then because of a failed read of the target, `C35_target_fails`). -/
theorem C35_no_refetch {env : Env} {w w' : World} {ipath tpath : Bytes} {stores : List Bytes} {ti : Nat} {segs : List Seg} {o : Res Bool}
    (hsc : Scene env w ipath tpath (tpath :: stores)) (hd : Describes w ipath segs) (ht : w.dir tpath = some ti)
    (hrun : csnMain env (ipath :: tpath :: tpath :: stores) w = (o, w')) :
    ∃ evs, w'.log = w.log ++ evs ∧
      (∀ a k id b, evs = a ++ .ask (k + 1) id :: b → .failed 0 ∉ a → FirstUse env.H ti w segs a id) ∧
      (∀ a b, evs = a ++ b → .failed 0 ∉ a → ((asksOf a).filter (fun p => p.1 ≠ 0)).Nodup) ∧
      (.failed 0 ∈ evs → ¬ Clean w.sys ∨ 2 ^ 63 ≤ total segs) := by
  have h : (∃ evs, w'.log = w.log ++ evs ∧ Asks env.H ti w segs evs) ∨ Dead env.H ti w segs w' := by
    have h := run_keep hsc hd ht
    cases o with
    | ok b => exact wp_ok h hrun
    | stop s => exact wp_stopped h hrun
  have nodup : ∀ {evs a b : List Event}, evs = a ++ b → Asks env.H ti w segs evs → ((asksOf a).filter (fun p => p.1 ≠ 0)).Nodup := by
    intro evs a b e h
    have := h.once
    rw [e, asksOf_append, List.filter_append] at this
    exact (List.nodup_append.1 this).1
  rcases h with ⟨evs, h1, h2⟩ | ⟨h0, evs, l, h1, h2⟩
  · exact ⟨evs, h1, fun a k id b e _ => h2.first a k id b e, fun a b e _ => nodup e h2, fun hm => absurd hm h2.alive⟩
  · refine ⟨_, h1, ?_, ?_, fun _ => h0⟩
    · intro a k id b e hn
      rcases List.append_eq_append_iff.1 e with ⟨m, m1, m2⟩ | ⟨m, m1, m2⟩
      · cases m with
        | nil => simp at m2
        | cons x m =>
          simp only [List.cons_append, List.cons.injEq] at m2
          exact absurd (by rw [m1, ← m2.1]; simp) hn
      · cases m with
        | nil => simp at m2
        | cons x m =>
          simp only [List.cons_append, List.cons.injEq] at m2
          exact h2.first a k id m (by rw [m1, m2.1])
    · intro a b e hn
      rcases List.append_eq_append_iff.1 e with ⟨m, m1, m2⟩ | ⟨m, m1, m2⟩
      · cases m with
        | nil => exact nodup (b := []) (by simp [m1]) h2
        | cons x m =>
          simp only [List.cons_append, List.cons.injEq] at m2
          exact absurd (by rw [m1, ← m2.1]; simp) hn
      · exact nodup m1 h2

/-- **C35**: if no system call fails and offsets stay below 2^63, this holds for the whole run. -/
theorem C35_clean {env : Env} {w w' : World} {ipath tpath : Bytes} {stores : List Bytes} {ti : Nat} {segs : List Seg} {o : Res Bool}
    (hsc : Scene env w ipath tpath (tpath :: stores)) (hd : Describes w ipath segs) (ht : w.dir tpath = some ti)
    (hc : Clean w.sys) (h63 : total segs < 2 ^ 63) (hrun : csnMain env (ipath :: tpath :: tpath :: stores) w = (o, w')) :
    ∃ evs, w'.log = w.log ++ evs ∧
      (∀ a k id b, evs = a ++ .ask (k + 1) id :: b → FirstUse env.H ti w segs a id) ∧
      ((asksOf evs).filter (fun p => p.1 ≠ 0)).Nodup := by
  obtain ⟨evs, h1, h2, h3, h4⟩ := C35_no_refetch hsc hd ht hrun
  have hn : Event.failed 0 ∉ evs := fun h => (h4 h).elim (fun h => h hc) (by omega)
  refine ⟨evs, h1, fun a k id b e => h2 a k id b e (fun h => hn (by rw [e]; simp [h])), h3 evs [] (by simp) hn⟩

/-- **C35**: the target fails as a store only if reading one of its regions with the wanted ID fails (or that region is
longer than the caller's buffer). -/
theorem C35_target_fails {lib : Lib} (hlib : lib.Conforms) {t t' : Tgt} {id : Id} {out out' : Bytes} {w w' : World}
    (hi : t.queryable = true → IndexInv t.idx) (h : targetGet lib t id out w = (.ok (none, t', out'), w')) :
    ∃ e ∈ t.idx.entries, e.id = id ∧ (out.length < e.len ∨ ∃ d, preadall t.ino e.start e.len w = (.ok (false, d), w')) := by
  unfold targetGet at h
  cases hq : t.queryable with
  | false =>
    rw [hq] at h
    have := congrArg Prod.fst h
    cases this
  | true =>
    simp only [hq, Bool.not_true, Bool.false_eq_true, if_false] at h
    obtain ⟨r, idx', e, h1, h2, hsp, _, _, _, _, h3, h4⟩ := indexQuery_spec lib hlib t.idx id (hi hq)
    rw [e] at h
    cases r with
    | none =>
      have := congrArg Prod.fst h
      cases this
    | some i =>
      obtain ⟨x, x1, x2, x3⟩ := h3 i rfl
      simp only [x1] at h
      refine ⟨x, x3, x2, ?_⟩
      by_cases hl : x.len > out.length
      · exact Or.inl hl
      · right
        rw [if_neg hl, bind_apply] at h
        generalize preadall t.ino x.start x.len w = p at h ⊢
        obtain ⟨p, v⟩ := p
        cases p with
        | stop s =>
          have := congrArg Prod.fst h
          cases this
        | ok p =>
          obtain ⟨ok, d⟩ := p
          cases ok with
          | true =>
            have := congrArg Prod.fst h
            cases this
          | false =>
            have h' : v = w' := congrArg Prod.snd h
            exact ⟨d, by rw [h']⟩

/-- An index with a chunk that comes back after another one. -/
def backIdx : Bytes := exIdx [exC1, exC2, exC1]

theorem backIdx_wf : WellFormed backIdx 10 20 50 3 :=
  encode_wellFormed ⟨by decide, by decide, by decide, by decide, by decide⟩

theorem backScene (target : Bytes) (sys : List Sys) : Scene syncEnv (syncWorld backIdx target [] sys) (str "i") (str "t") [str "t", str "s"] :=
  syncWorld_scene backIdx_wf _ (by simp) (by simp)

/-- A case of C35: the first chunk is needed again at the end and then taken from the target. -/
example : Describes (syncWorld backIdx [] [] manySys) (str "i") [⟨0, 50, syncEnv.H exC1⟩, ⟨50, 10, syncEnv.H exC2⟩, ⟨60, 50, syncEnv.H exC1⟩] ∧
    Clean manySys ∧ total [⟨0, 50, syncEnv.H exC1⟩, ⟨50, 10, syncEnv.H exC2⟩, ⟨60, 50, syncEnv.H exC1⟩] < 2 ^ 63 ∧
    (exRun ["t", "s"] (syncWorld backIdx [] [] manySys)).1 = .ok true ∧
    asksOf (exRun ["t", "s"] (syncWorld backIdx [] [] manySys)).2.log =
      [(0, syncEnv.H exC1), (1, syncEnv.H exC1), (0, syncEnv.H exC2), (1, syncEnv.H exC2), (0, syncEnv.H exC1)] := by
  refine ⟨?_, ⟨by decide +kernel, by decide +kernel⟩, by decide, by decide +kernel, by decide +kernel⟩
  have h := syncWorld_describes (target := []) (side := []) (sys := manySys) backIdx_wf
  rw [show delivered 0 (tableEntries backIdx 3) = [⟨0, 50, syncEnv.H exC1⟩, ⟨50, 10, syncEnv.H exC2⟩, ⟨60, 50, syncEnv.H exC1⟩] by decide +kernel] at h
  exact h

/-- A case with a failing read of the target: it is taken out of use, and the other store is asked again. -/
example : Event.failed 0 ∈ (exRun ["t", "s"] (syncWorld backIdx [] [] (manySys.take 23 ++ .err :: manySys))).2.log ∧
     (exRun ["t", "s"] (syncWorld backIdx [] [] (manySys.take 23 ++ .err :: manySys))).1 = .ok true ∧
    ¬ ((asksOf (exRun ["t", "s"] (syncWorld backIdx [] [] (manySys.take 23 ++ .err :: manySys))).2.log).filter (fun p => p.1 ≠ 0)).Nodup := by
  refine ⟨by decide +kernel, by decide +kernel, ?_⟩
  rw [show asksOf (exRun ["t", "s"] (syncWorld backIdx [] [] (manySys.take 23 ++ .err :: manySys))).2.log =
    [(0, syncEnv.H exC1), (1, syncEnv.H exC1), (0, syncEnv.H exC2), (1, syncEnv.H exC2), (0, syncEnv.H exC1), (1, syncEnv.H exC1)] by decide +kernel]
  simp

/-- A case of `C35_target_fails`. -/
example : ∃ t' out' w', targetGet syncEnv.lib ⟨0, ⟨true, 4, 192, [⟨0, 10, true, syncEnv.H exC2⟩]⟩, true⟩ (syncEnv.H exC2) (List.replicate 10 0)
    (syncWorld backIdx exC2 [] [.err]) = (.ok (none, t', out'), w') := by
  exact ⟨_, _, _, rfl⟩

end Csn.Props
