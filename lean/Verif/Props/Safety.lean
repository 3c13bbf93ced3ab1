import Verif.Props.SyncEx
import Verif.Spec.Durable
/-
C56: durability of a successful run.  C60: memory safety of whole runs.
-/
namespace Csn.Props
open Csn Spec Proof

/-! ### C56 -/

/-- A run of csn never flushes anything. -/
theorem run_no_fsync {env : Env} {w w' : World} {ipath tpath : Bytes} {stores : List Bytes} {o : Res Bool} (hsc : Scene env w ipath tpath stores)
    (hrun : csnMain env (ipath :: tpath :: stores) w = (o, w')) : ∃ evs, w'.log = w.log ++ evs ∧ ∀ i, Event.fsync i ∉ evs := by
  rcases run_cases hsc hrun with ⟨_, ⟨evs, hc, he⟩, _⟩ | ⟨ti, segs, h1, h2, _, ⟨pre, post, rest, m, d, hs, _⟩, _⟩
  · refine ⟨evs, hc.log, fun i hm => ?_⟩
    rcases he _ hm with ⟨_, h⟩ | ⟨_, h⟩ | ⟨_, h⟩ <;> cases h
  · obtain ⟨evs, l1, l2, _⟩ := hs.log
    refine ⟨evs, l1, fun i hm => ?_⟩
    rcases l2 _ hm with ⟨_, _, h⟩ | ⟨_, h⟩ | ⟨_, _, h⟩ | ⟨_, h⟩ | ⟨_, _, h⟩ | (⟨_, h⟩ | ⟨_, _, h⟩) | ⟨_, h⟩ | ⟨_, h⟩ | ⟨_, h⟩ <;> cases h

/-- **C56, what holds instead**: whatever a run does, a power cut afterwards may leave every file as it was before the run. -/
theorem C56_everything_may_be_lost (env : Env) (w w' : World) (ipath tpath : Bytes) (stores : List Bytes) (hsc : Scene env w ipath tpath stores)
    (o : Res Bool) (hrun : csnMain env (ipath :: tpath :: stores) w = (o, w')) (i : Nat) :
    ∃ evs, w'.log = w.log ++ evs ∧ Survives i (w.data i) evs (w.data i) := by
  obtain ⟨evs, h1, h2⟩ := run_no_fsync hsc hrun
  exact ⟨evs, h1, [], evs, [], rfl, h2 i, Or.inl rfl, List.nil_sublist _, rfl⟩

theorem writesTo_nil {i : Nat} {evs : List Event} (h : writesOf evs = []) : writesTo i evs = [] := by
  induction evs with
  | nil => rfl
  | cons e evs ih => cases e <;> simp [writesOf] at h <;> simp [writesTo, ih h]

theorem writesOf_left {a b : List Event} (h : writesOf (a ++ b) = []) : writesOf a = [] ∧ writesOf b = [] := by
  rw [writesOf_append] at h
  exact List.append_eq_nil_iff.1 h

/-- **C56** (partial): if the target's contents were stable and already in sync, then after a successful run only these
contents can be found.  (This is all that holds, see `C56_everything_may_be_lost`, `C56_refuted`.) -/
theorem C56_nothing_to_do_partial (env : Env) (w w' : World) (ipath tpath : Bytes) (stores : List Bytes) (hsc : Scene env w ipath tpath stores)
    (o : Res Bool) (hrun : csnMain env (ipath :: tpath :: stores) w = (o, w')) (segs : List Seg) (hd : Describes w ipath segs)
    (ti : Nat) (ht : w.dir tpath = some ti) (hclean : Clean w.sys) (hlen : (w.data ti).length < 2 ^ 63)
    (hsync : ∀ s ∈ segs, Matches env.H (w.data ti) s) :
    ∃ evs, w'.log = w.log ++ evs ∧ ∀ g, Survives ti (w.data ti) evs g → g = w.data ti := by
  obtain ⟨evs, h1, h2, h3, h4, h5⟩ := C31_resumption_partial env w w' ipath tpath stores hsc o hrun segs hd ti ht hclean hlen segs [] (by simp) hsync (by simp)
  obtain ⟨pre, post, rest, m, d, hs, _⟩ := run_shape hsc hrun hd ht
  obtain ⟨evs', l1, _, l3, _⟩ := hs.log
  have : evs' = evs := List.append_cancel_left (l1.symm.trans h1)
  subst this
  have hw : writesOf evs' = [] := by
    cases hw : writesOf evs' with
    | nil => rfl
    | cons e ws =>
      exfalso
      have hm : e ∈ writesOf evs' := by rw [hw]; simp
      have g1 := h2 e hm
      have g2 := (contig_ge l3 e hm).2
      have g3 := List.length_pos_iff.2 (contig_ne l3 e hm)
      by_cases hd0 : d = []
      · subst hd0
        have := hs.split
        have : total segs = total (pre ++ post) + total rest := by rw [this, total_append]
        simp only [List.length_nil] at g2
        omega
      · obtain ⟨_, seg, rest', c, r1, _, _, r4, _⟩ := hs.part hd0
        have : total segs = total (pre ++ post) + total rest := by rw [hs.split, total_append]
        rw [r1, show total (seg :: rest') = seg.len + total rest' from by simp [total]] at this
        omega
  refine ⟨evs', h1, ?_⟩
  rintro g ⟨early, late, kept, rfl, _, _, hk, hr⟩
  obtain ⟨wa, wb⟩ := writesOf_left hw
  rw [writesTo_nil wb] at hk
  rw [writesTo_nil wa, List.sublist_nil.1 hk] at hr
  exact hr

/-- **C56 refuted**: a run succeeds, and after a power cut the target may not even hold the first chunk. -/
theorem C56_refuted : ∃ env w w' ipath tpath stores ti segs evs g, Scene env w ipath tpath stores ∧
    csnMain env (ipath :: tpath :: stores) w = (.ok true, w') ∧ w.dir tpath = some ti ∧ Describes w ipath segs ∧ w'.log = w.log ++ evs ∧
    Survives ti (w.data ti) evs g ∧ ∃ s ∈ segs, ¬ Matches env.H g s := by
  obtain ⟨evs, h1, h2⟩ := C56_everything_may_be_lost syncEnv okWorld _ _ _ _ okScene (.ok true) okRun.1 3
  refine ⟨syncEnv, okWorld, _, str "i", str "t", [str "s"], 3, _, evs, _, okScene, okRun.1, rfl, syncWorld_describes okIdx_wf, h1, h2,
    ⟨0, 50, syncEnv.H exC1⟩, by rw [okSegs]; simp, ?_⟩
  intro h
  exact absurd h.2 (by decide +kernel)

/-! ### C60 -/

/-- **C60** (partial): a run - successful, failing or killed at any point, with whatever servers - has no undefined behaviour
provided neighbouring entries of the index with the same ID have the same length, and provided (if a local store is given
together with an index that is wrong about it) memory does not run out, system calls do not fail and the store is a file or
block device below 2^56 bytes.  Missing, since false: `C60_overread_refuted`, `C60_double_free_refuted`. -/
theorem C60_no_undefined_behaviour_partial (env : Env) (w w' : World) (ipath tpath : Bytes) (stores : List Bytes) (hsc : Scene env w ipath tpath stores)
    (o : Res Bool) (hrun : csnMain env (ipath :: tpath :: stores) w = (o, w'))
    (hreg : ∀ segs, Describes w ipath segs → Regular segs)
    (hloc : ∀ arg ∈ stores, ∀ path index i j, LocalArg tpath arg path (some index) → w.dir path = some i → w.dir index = some j →
      WrongAbout env.H (w.data j) (w.data i) → Clean w.sys ∧ false ∉ w.mem ∧ (w.data i).length < 2 ^ 56 ∧ w.kind i ≠ .other) : o ≠ .stop .ub := by
  intro ho
  rcases run_cases hsc hrun with ⟨_, _, _, h4⟩ | ⟨ti, segs, h1, h2, _, _, h5⟩
  · rcases h4 _ ho with h | ⟨h, _⟩ <;> cases h
  · rcases h5 ho with h | ⟨arg, ha, path, index, i, j, h, hp, hj, hwr, hr⟩
    · exact h (hreg segs h2)
    · obtain ⟨g1, g2, g3, g4⟩ := hloc arg ha path index i j h hp hj hwr
      rcases hr with h | h | h | h
      · exact h g1
      · exact g2 h
      · omega
      · exact g4 h

/-- With an index with a longer repetition of an ID, and nothing else wrong, the buffer is read behind its end. -/
theorem C60_overread_refuted : ∃ env w w' ipath tpath stores, Scene env w ipath tpath stores ∧ Clean w.sys ∧ false ∉ w.mem ∧
    csnMain env (ipath :: tpath :: stores) w = (.stop .ub, w') := by
  refine ⟨syncEnv, syncWorld (oddIdx [(50, exC1), (70, exC1), (10, exC2)]) [] [] manySys, (exRun ["s"] (syncWorld (oddIdx [(50, exC1), (70, exC1), (10, exC2)]) [] [] manySys)).2,
    str "i", str "t", [str "s"], syncWorld_scene (n := 3) ?_ _ (by simp) (by simp), ⟨by decide +kernel, by decide +kernel⟩, by decide +kernel, pair_eq (by decide +kernel)⟩
  exact encode_wellFormed ⟨by decide, by decide, by decide, by decide, by decide⟩

/-- A side-load index with a wrong entry. -/
def wrongIdx : Bytes := encode 10 20 50 [(40, syncEnv.H exC1), (10, syncEnv.H exC2)]

/-- With a regular index a single read error, while a store discards a wrong index, leads to freeing its memory twice, after
the whole image has been written. -/
theorem C60_double_free_refuted : ∃ env w w' ipath tpath stores segs ti, Scene env w ipath tpath stores ∧ Describes w ipath segs ∧
    segs.map (·.len) = [50, 10] ∧ segs.map (·.id) = [env.H exC1, env.H exC2] ∧ false ∉ w.mem ∧ w.sys.count .err = 1 ∧ w.dir tpath = some ti ∧
    csnMain env (ipath :: tpath :: stores) w = (.stop .ub, w') ∧ w'.data ti = exC1 ++ exC2 := by
  refine ⟨syncEnv, syncWorld (exIdx [exC1, exC2]) [] wrongIdx (manySys.set 30 .err), (exRun ["s:b", "s"] (syncWorld (exIdx [exC1, exC2]) [] wrongIdx (manySys.set 30 .err))).2,
    str "i", str "t", [str "s:b", str "s"], _, 3, syncWorld_scene okIdx_wf _ (by simp) (by simp), syncWorld_describes okIdx_wf, ?_, ?_, by decide +kernel, by decide +kernel, rfl,
    pair_eq (by decide +kernel), by decide +kernel⟩
  · rw [okSegs]; decide
  · rw [okSegs]; rfl

/-- Indexes of two different chunks are regular. -/
theorem okRegular {target side : Bytes} {sys : List Sys} :
    ∀ segs, Describes (syncWorld (exIdx [exC1, exC2]) target side sys) (str "i") segs → Regular segs := by
  intro segs h
  rw [Describes.unique h (syncWorld_describes okIdx_wf), okSegs]
  intro a x y b h
  cases a with
  | nil =>
    simp only [List.nil_append, List.cons.injEq] at h
    obtain ⟨rfl, rfl, _⟩ := h
    intro hh
    exact absurd hh (by decide +kernel)
  | cons z a =>
    have := congrArg List.length h
    simp at this
    omega

/-- "s:b" is the file "s" with the index "b". -/
theorem sideArg : LocalArg (str "t") (str "s:b") (str "s") (some (str "b")) := ⟨by decide, by decide, by decide, rfl⟩

/-- The hypotheses of C60 for a store with a wrong index and working system calls; here the wrong index is found out. -/
example : WrongAbout syncEnv.H wrongIdx exFile ∧ (exRun ["s:b"] (syncWorld (exIdx [exC1, exC2]) [] wrongIdx manySys)).1 = .ok true ∧
    (∀ arg ∈ [str "s:b"], ∀ path index i j, LocalArg (str "t") arg path (some index) →
      (syncWorld (exIdx [exC1, exC2]) [] wrongIdx manySys).dir path = some i → (syncWorld (exIdx [exC1, exC2]) [] wrongIdx manySys).dir index = some j →
      WrongAbout syncEnv.H ((syncWorld (exIdx [exC1, exC2]) [] wrongIdx manySys).data j) ((syncWorld (exIdx [exC1, exC2]) [] wrongIdx manySys).data i) →
      Clean (syncWorld (exIdx [exC1, exC2]) [] wrongIdx manySys).sys ∧ false ∉ (syncWorld (exIdx [exC1, exC2]) [] wrongIdx manySys).mem ∧
      ((syncWorld (exIdx [exC1, exC2]) [] wrongIdx manySys).data i).length < 2 ^ 56 ∧ (syncWorld (exIdx [exC1, exC2]) [] wrongIdx manySys).kind i ≠ .other) := by
  refine ⟨⟨10, 20, 50, 2, encode_wellFormed ⟨by decide, by decide, by decide, by decide, by decide⟩, ⟨0, 40, syncEnv.H exC1⟩, by decide +kernel, by decide +kernel, by decide +kernel⟩,
    by decide +kernel, ?_⟩
  intro arg ha path index i j h1 h2 _ _
  simp only [List.mem_singleton] at ha
  subst ha
  obtain ⟨rfl, -⟩ := localArg_eq h1 sideArg
  have h3 : (syncWorld (exIdx [exC1, exC2]) [] wrongIdx manySys).dir (str "s") = some 1 := rfl
  rw [h3] at h2
  cases h2
  exact ⟨⟨by decide +kernel, by decide +kernel⟩, by decide +kernel, by decide +kernel, by decide +kernel⟩

/-- The hypotheses of C60 for a store with a right index and failing system calls. -/
example : (exRun ["s:b"] (syncWorld (exIdx [exC1, exC2]) [] (exIdx [exC1, exC2]) (manySys.set 25 .err))).1 = .ok false ∧
    ¬ WrongAbout syncEnv.H (exIdx [exC1, exC2]) exFile := by
  refine ⟨by decide +kernel, ?_⟩
  rintro ⟨mi, av, ma, n, h1, s, h2, _, h3⟩
  obtain ⟨_, _, _, rfl⟩ := wellFormed_unique h1 okIdx_wf
  rw [okSegs] at h2
  simp only [List.mem_cons, List.not_mem_nil, or_false] at h2
  rcases h2 with rfl | rfl
  · exact h3 (by decide +kernel)
  · exact h3 (by decide +kernel)

end Csn.Props
