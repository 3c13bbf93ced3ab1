import Verif.Props.Resume
import Verif.Props.Http
/-
Concrete runs of csn: cases of the theorems about runs, and refutations of the statements that do not hold in full.
-/
namespace Csn.Props
open Csn Spec Proof

/-- A hash function that tells the chunks `cs` from each other and from everything else. -/
def markH (cs : List Bytes) (d : Bytes) : Id := UInt8.ofNat (cs.findIdx (· == d)) :: List.replicate 31 0

/-- The two chunks of the example file. -/
def exC1 : Bytes := exFile.take 50
def exC2 : Bytes := exFile.drop 50
/-- A chunk that is not in the example file. -/
def exC3 : Bytes := List.replicate 20 5

def syncEnv : Env := { exHttpEnv with H := markH [exC1, exC2, exC3] }

/-- Files: a store "s" with the example file, the index "i", the target "t", which is also known as "a", and a side-load
index "b". -/
def syncWorld (index target side : Bytes) (sys : List Sys) : World where
  data := fun i => if i = 1 then exFile else if i = 2 then index else if i = 3 then target else if i = 4 then side else []
  kind := fun _ => .reg
  dir := fun p => if p = str "s" then some 1 else if p = str "i" then some 2 else if p = str "t" then some 3
    else if p = str "a" then some 3 else if p = str "b" then some 4 else none
  next := 6
  sys := sys
  mem := []
  net := []
  log := []

def exIdx (cs : List Bytes) : Bytes := encode 10 20 50 (cs.map (fun c => (c.length, syncEnv.H c)))

/-- An index whose entries have the given lengths and the IDs of the given chunks. -/
def oddIdx (cs : List (Nat × Bytes)) : Bytes := encode 10 20 50 (cs.map (fun c => (c.1, syncEnv.H c.2)))

def manySys : List Sys := List.replicate 120 (.some 999)

def exRun (stores : List String) (w : World) : Res Bool × World := csnMain syncEnv (str "i" :: str "t" :: stores.map str) w

theorem syncEnv_sane : Sane syncEnv := exHttpEnv_sane

theorem syncWorld_scene {index target side : Bytes} {sys : List Sys} {n : Nat} (hwf : WellFormed index 10 20 50 n) (stores : List Bytes)
    (hst : ∀ arg ∈ stores, arg = str "s" ∨ arg = str "s:b" ∨ arg = str "t") :
    (stores.length < 2 ^ 57) → Scene syncEnv (syncWorld index target side sys) (str "i") (str "t") stores := by
  intro hfew
  refine ⟨refLib_conforms, syncEnv_sane, by intro f hf; simp [syncWorld] at hf, ?_, ?_, ?_, hfew⟩
  · intro i hi ht
    have e1 : (syncWorld index target side sys).dir (str "i") = some 2 := rfl
    have e2 : (syncWorld index target side sys).dir (str "t") = some 3 := rfl
    rw [e1] at hi; rw [e2] at ht
    cases hi; cases ht
  · intro arg ha path idx hl i hi ht
    have e2 : (syncWorld index target side sys).dir (str "t") = some 3 := rfl
    rw [e2] at ht
    cases ht
    have hs : path = str "s" := by
      rcases hst arg ha with rfl | rfl | rfl
      · exact (localArg_eq hl (show LocalArg (str "t") (str "s") (str "s") none from ⟨by decide, by decide, by decide, rfl⟩)).1
      · exact (localArg_eq hl (show LocalArg (str "t") (str "s:b") (str "s") (some (str "b")) from ⟨by decide, by decide, by decide, by decide⟩)).1
      · exact absurd rfl hl.1
    rw [hs] at hi
    have : (syncWorld index target side sys).dir (str "s") = some 1 := rfl
    rw [this] at hi
    cases hi
  · intro _ i p n' hi hw
    have e1 : (syncWorld index target side sys).dir (str "i") = some 2 := rfl
    rw [e1] at hi
    cases hi
    have e3 : (syncWorld index target side sys).data 2 = index := rfl
    rw [e3] at hw
    obtain ⟨h1, h2, h3, _⟩ := wellFormed_unique hw hwf
    have : p = exP := by
      cases p
      simp only at h1 h2 h3
      rw [h1, h2, h3]; rfl
    rw [this]
    exact ⟨15, by decide, by decide, by decide, by decide, by decide⟩

theorem syncWorld_describes {index target side : Bytes} {sys : List Sys} {n : Nat} (hwf : WellFormed index 10 20 50 n) :
    Describes (syncWorld index target side sys) (str "i") (delivered 0 (tableEntries index n)) :=
  ⟨2, 10, 20, 50, n, rfl, hwf, rfl⟩

theorem pair_eq {α β : Type} {x : α × β} {a : α} (h : x.1 = a) : x = (a, x.2) := by
  rw [← h]

/-! ### A successful run -/

def okWorld : World := syncWorld (exIdx [exC1, exC2]) (List.replicate 70 9) [] manySys

theorem okIdx_wf : WellFormed (exIdx [exC1, exC2]) 10 20 50 2 :=
  encode_wellFormed ⟨by decide, by decide, by decide, by decide, by decide⟩

theorem okScene : Scene syncEnv okWorld (str "i") (str "t") [str "s"] :=
  syncWorld_scene okIdx_wf _ (by simp) (by simp)

/-- The run succeeds, with the image on the target and the rest behind it. -/
theorem okRun : exRun ["s"] okWorld = (.ok true, (exRun ["s"] okWorld).2) ∧
    (exRun ["s"] okWorld).2.data 3 = exC1 ++ exC2 ++ List.replicate 10 9 :=
  ⟨pair_eq (by decide +kernel), by decide +kernel⟩

/-- A case of C27, with the hypotheses about the index. -/
example : Ascending 0 (tableEntries (exIdx [exC1, exC2]) 2) ∧ Uniform (consecutive 0 (tableEntries (exIdx [exC1, exC2]) 2)) ∧
    consecutive 0 (tableEntries (exIdx [exC1, exC2]) 2) = [(0, 50, syncEnv.H exC1), (50, 10, syncEnv.H exC2)] := by
  have e : consecutive 0 (tableEntries (exIdx [exC1, exC2]) 2) = [(0, 50, syncEnv.H exC1), (50, 10, syncEnv.H exC2)] := by decide +kernel
  have e2 : tableEntries (exIdx [exC1, exC2]) 2 = [(50, syncEnv.H exC1), (60, syncEnv.H exC2)] := by decide +kernel
  refine ⟨?_, ?_, e⟩
  · rw [e2]; simp [Ascending]
  · rw [e]
    intro a x y b h
    cases a with
    | nil =>
      simp only [List.nil_append, List.cons.injEq] at h
      obtain ⟨rfl, rfl, _⟩ := h
      decide
    | cons z a =>
      have := congrArg List.length h
      simp at this
      omega

/-- A case of C28: the hypotheses about chunks and hash. -/
example : okWorld.data 2 = encode 10 20 50 ([exC1, exC2].map (fun c => (c.length, syncEnv.H c))) ∧
    Encodable 10 20 50 ([exC1, exC2].map (fun c => (c.length, syncEnv.H c))) ∧
    ∀ c ∈ [exC1, exC2], ∀ d, (∃ c' ∈ [exC1, exC2], d.length = c'.length) → syncEnv.H d = syncEnv.H c → d = c := by
  refine ⟨rfl, ⟨by decide, by decide, by decide, by decide, by decide⟩, ?_⟩
  intro c hc d _ he
  have e1 : syncEnv.H exC1 = 0 :: List.replicate 31 0 := by decide +kernel
  have e2 : syncEnv.H exC2 = 1 :: List.replicate 31 0 := by decide +kernel
  have hd : syncEnv.H d = UInt8.ofNat ([exC1, exC2, exC3].findIdx (· == d)) :: List.replicate 31 0 := rfl
  rw [hd] at he
  simp only [List.findIdx_cons, List.findIdx_nil] at he
  by_cases h1 : exC1 = d
  · subst h1
    rcases List.mem_cons.1 hc with rfl | hc
    · rfl
    · simp only [List.mem_singleton] at hc
      subst hc
      rw [e2] at he
      simp at he
  · have h1' : (exC1 == d) = false := by simp [h1]
    by_cases h2 : exC2 = d
    · subst h2
      rcases List.mem_cons.1 hc with rfl | hc
      · rw [e1, h1'] at he
        simp at he
      · simp only [List.mem_singleton] at hc
        rw [hc]
    · have h2' : (exC2 == d) = false := by simp [h2]
      exfalso
      rw [h1', h2'] at he
      rcases List.mem_cons.1 hc with rfl | hc
      · rw [e1] at he
        generalize (exC3 == d) = bb at he
        cases bb <;> exact absurd he (by decide)
      · simp only [List.mem_singleton] at hc
        subst hc
        rw [e2] at he
        generalize (exC3 == d) = bb at he
        cases bb <;> exact absurd he (by decide)

/-- The regions of the index. -/
theorem okSegs : delivered 0 (tableEntries (exIdx [exC1, exC2]) 2) = [⟨0, 50, syncEnv.H exC1⟩, ⟨50, 10, syncEnv.H exC2⟩] := by decide +kernel

/-- A case of C30 and of the first run of C32: killed in the middle of writing the second chunk. -/
example : (exRun ["s"] { okWorld with sys := manySys.take 21 ++ [.some 4] }).1 = .stop .killed ∧
    (exRun ["s"] { okWorld with sys := manySys.take 21 ++ [.some 4] }).2.data 3 = exC1 ++ exC2.take 5 ++ List.replicate 15 9 ∧
    Regular [⟨0, 50, syncEnv.H exC1⟩, ⟨50, 10, syncEnv.H exC2⟩] := by
  refine ⟨by decide +kernel, by decide +kernel, ?_⟩
  intro a x y b h
  cases a with
  | nil =>
    simp only [List.nil_append, List.cons.injEq] at h
    obtain ⟨rfl, rfl, _⟩ := h
    intro hh
    exact absurd hh (by decide +kernel)
  | cons z a =>
    have := congrArg List.length h
    simp at this
    omega

/-! ### Runs that refute -/

/-- The second entry repeats the first one's ID with another length. -/
def repIdx : Bytes := oddIdx [(50, exC1), (10, exC1), (10, exC2)]

theorem repIdx_wf : WellFormed repIdx 10 20 50 3 :=
  encode_wellFormed ⟨by decide, by decide, by decide, by decide, by decide⟩

theorem repSegs : delivered 0 (tableEntries repIdx 3) = [⟨0, 50, syncEnv.H exC1⟩, ⟨50, 10, syncEnv.H exC1⟩, ⟨60, 10, syncEnv.H exC2⟩] := by decide +kernel

def repWorld : World := syncWorld repIdx [] [] manySys

theorem repScene : Scene syncEnv repWorld (str "i") (str "t") [str "s"] :=
  syncWorld_scene repIdx_wf _ (by simp) (by simp)

theorem repRun : csnMain syncEnv [str "i", str "t", str "s"] repWorld = (.ok true, (exRun ["s"] repWorld).2) := pair_eq (by decide +kernel)

/-- **C27 refuted in full**: an entry with the same ID as the one before but another length is neither fetched nor checked;
csn succeeds with a region whose hash is not the entry's. -/
theorem C27_refuted : ∃ env w w' ipath tpath stores ti ii mi av ma n, Scene env w ipath tpath stores ∧
    csnMain env (ipath :: tpath :: stores) w = (.ok true, w') ∧ w.dir tpath = some ti ∧ w.dir ipath = some ii ∧ WellFormed (w.data ii) mi av ma n ∧
    Ascending 0 (tableEntries (w.data ii) n) ∧ ∃ off len id, (off, len, id) ∈ consecutive 0 (tableEntries (w.data ii) n) ∧ len ≠ 0 ∧
      env.H (slice (w'.data ti) off len) ≠ id := by
  refine ⟨syncEnv, repWorld, (exRun ["s"] repWorld).2, str "i", str "t", [str "s"], 3, 2, 10, 20, 50, 3, repScene, repRun, rfl, rfl, repIdx_wf, ?_, 50, 10, syncEnv.H exC1, ?_, by decide, ?_⟩
  · have : tableEntries repIdx 3 = [(50, syncEnv.H exC1), (60, syncEnv.H exC1), (70, syncEnv.H exC2)] := by decide +kernel
    rw [show repWorld.data 2 = repIdx from rfl, this]
    simp [Ascending]
  · decide +kernel
  · decide +kernel

/-- **C30 refuted in full**: after this run the target does not consist of verified regions. -/
theorem C30_refuted : ∃ env w w' ipath tpath stores ti segs, Scene env w ipath tpath stores ∧
    csnMain env (ipath :: tpath :: stores) w = (.ok true, w') ∧ w.dir tpath = some ti ∧ Describes w ipath segs ∧
    ∃ s ∈ segs, ¬ Verified env.H (w'.data ti) s := by
  refine ⟨syncEnv, repWorld, (exRun ["s"] repWorld).2, str "i", str "t", [str "s"], 3, _, repScene, repRun, rfl, syncWorld_describes repIdx_wf,
    ⟨50, 10, syncEnv.H exC1⟩, by rw [repSegs]; simp, ?_⟩
  intro h
  exact absurd (h (by decide)).2 (by decide +kernel)

/-- **C58 refuted in full**: this run writes data that is no piece of a chunk with the hash that any entry demands. -/
theorem C58_refuted : ∃ env w w' ipath tpath stores segs, Scene env w ipath tpath stores ∧
    csnMain env (ipath :: tpath :: stores) w = (.ok true, w') ∧ Describes w ipath segs ∧
    ∃ i pos d, Event.write i pos d ∈ w'.log ∧ ∀ s ∈ segs, ¬ PieceFor env.H True s pos d := by
  refine ⟨syncEnv, repWorld, (exRun ["s"] repWorld).2, str "i", str "t", [str "s"], _, repScene, repRun, syncWorld_describes repIdx_wf,
    3, 50, exC1.take 10, by decide +kernel, ?_⟩
  rw [repSegs]
  intro s hs hp
  obtain ⟨c, h1, h2, j, h3, h4, h5⟩ := hp
  have hl : (exC1.take 10).length = 10 := by decide
  simp only [List.mem_cons, List.not_mem_nil, or_false] at hs
  rcases hs with rfl | rfl | rfl
  · simp only at h3 h4; omega
  · simp only at h1 h2 h3
    have hj : j = 0 := by omega
    subst hj
    have : exC1.take 10 = c := by
      rw [h5, hl]
      unfold slice
      rw [List.drop_zero, List.take_of_length_le (by omega)]
    rw [← this] at h2
    exact absurd (h2 trivial) (by decide +kernel)
  · simp only at h3; omega

/-- The world of the second run after `repRun`. -/
def repWorld2 : World := { (exRun ["s"] repWorld).2 with sys := manySys }

/-- **C33 refuted in full**: the second run asks the store and fails, with clean system calls, though the first succeeded.
(The query returns the first entry's chunk, which does not have the second entry's length.) -/
theorem C33_refuted : ∃ env w w1 w2 w3 ipath tpath stores ti segs, Scene env w ipath tpath stores ∧
    csnMain env (ipath :: tpath :: stores) w = (.ok true, w1) ∧ w.dir tpath = some ti ∧ Describes w ipath segs ∧ (∀ s ∈ segs, s.len ≠ 0) ∧
    w2 = { w1 with sys := w.sys } ∧ Clean w2.sys ∧ csnMain env (ipath :: tpath :: stores) w2 = (.ok false, w3) ∧
    ∃ id, Event.query id ∈ w3.log.drop w2.log.length := by
  refine ⟨syncEnv, repWorld, (exRun ["s"] repWorld).2, repWorld2, (exRun ["s"] repWorld2).2, str "i", str "t", [str "s"], 3, _, repScene, repRun, rfl,
    syncWorld_describes repIdx_wf, ?_, rfl, ⟨by decide +kernel, by decide +kernel⟩, pair_eq (by decide +kernel), syncEnv.H exC1, by decide +kernel⟩
  rw [repSegs]; simp

/-- **C32 refuted in full**: although the first run has written the third entry, the second run asks the store for the second
one (and fails). -/
theorem C32_refuted : ∃ env w w1 w2 w3 ipath tpath stores ti segs o, Scene env w ipath tpath stores ∧
    csnMain env (ipath :: tpath :: stores) w = (.ok true, w1) ∧ w.dir tpath = some ti ∧ Describes w ipath segs ∧ (∀ s ∈ segs, s.len ≠ 0) ∧
    w2 = { w1 with sys := w.sys } ∧ Clean w2.sys ∧ csnMain env (ipath :: tpath :: stores) w2 = (o, w3) ∧
    (∃ pos d, Event.write ti pos d ∈ w1.log.drop w.log.length ∧ total (segs.take 2) ≤ pos) ∧
    ∃ id, Event.query id ∈ w3.log.drop w2.log.length ∧ ∀ s ∈ segs.drop 2, s.id ≠ id := by
  refine ⟨syncEnv, repWorld, (exRun ["s"] repWorld).2, repWorld2, (exRun ["s"] repWorld2).2, str "i", str "t", [str "s"], 3, _, .ok false, repScene, repRun, rfl,
    syncWorld_describes repIdx_wf, ?_, rfl, ⟨by decide +kernel, by decide +kernel⟩, pair_eq (by decide +kernel), ⟨60, exC2, by decide +kernel, ?_⟩, syncEnv.H exC1, by decide +kernel, ?_⟩
  · rw [repSegs]; simp
  · rw [repSegs]; decide
  · rw [repSegs]; decide +kernel

/-- **C31 refuted in full**: the first region matches, but reading it fails; it is fetched and written again, and the run
succeeds. -/
theorem C31_refuted : ∃ env w w' ipath tpath stores ti segs, Scene env w ipath tpath stores ∧
    csnMain env (ipath :: tpath :: stores) w = (.ok true, w') ∧ w.dir tpath = some ti ∧ Describes w ipath segs ∧
    ∃ s rest, segs = s :: rest ∧ Matches env.H (w.data ti) s ∧ ∃ pos d, Event.write ti pos d ∈ w'.log.drop w.log.length ∧ pos < s.len := by
  refine ⟨syncEnv, syncWorld (exIdx [exC1, exC2]) exC1 [] (manySys.set 16 .err), (exRun ["s"] (syncWorld (exIdx [exC1, exC2]) exC1 [] (manySys.set 16 .err))).2, str "i", str "t",
    [str "s"], 3, _, syncWorld_scene okIdx_wf _ (by simp) (by simp), pair_eq (by decide +kernel), rfl, syncWorld_describes okIdx_wf, ⟨0, 50, syncEnv.H exC1⟩, [⟨50, 10, syncEnv.H exC2⟩], okSegs,
    ⟨by decide +kernel, by decide +kernel⟩, 0, exC1, by decide +kernel, by decide⟩

/-- **C28 refuted in full**: the store "a" is the target under another name.  Its index, made at the start, becomes stale as
the target is written, and is believed; csn succeeds with a wrong image. -/
theorem C28_refuted : ∃ (env : Env) (w w' : World) (ipath tpath : Bytes) (stores : List Bytes) (cs : List Bytes) (ii ti mi av ma : Nat), env.lib.Conforms ∧ Sane env ∧ w.net = [] ∧ w.dir ipath = some ii ∧ w.dir tpath = some ti ∧ ii ≠ ti ∧
    w.data ii = encode mi av ma (cs.map (fun c => (c.length, env.H c))) ∧ Encodable mi av ma (cs.map (fun c => (c.length, env.H c))) ∧
    csnMain env (ipath :: tpath :: stores) w = (.ok true, w') ∧ env.H (slice (w'.data ti) 50 20) ≠ env.H exC3 ∧ cs = [exC1, exC3] := by
  refine ⟨syncEnv, syncWorld (exIdx [exC1, exC3]) exC3 [] manySys, (exRun ["a", "s"] (syncWorld (exIdx [exC1, exC3]) exC3 [] manySys)).2, str "i", str "t", [str "a", str "s"],
    [exC1, exC3], 2, 3, 10, 20, 50, refLib_conforms, syncEnv_sane, rfl, rfl, rfl, by decide, rfl, ⟨by decide, by decide, by decide, by decide, by decide⟩,
    pair_eq (by decide +kernel), by decide +kernel, rfl⟩

/-! ### Further cases -/

/-- A case of C29: what is behind the image stays (see also `okRun`), and of C34, C58: the events. -/
example : (exRun ["s"] okWorld).2.log = [.scan 1, .query (syncEnv.H exC1), .ask 0 (syncEnv.H exC1),
    .answer (syncEnv.H exC1) (some 50), .write 3 0 exC1,
    .query (syncEnv.H exC2), .ask 0 (syncEnv.H exC2), .answer (syncEnv.H exC2) (some 10), .write 3 50 exC2, .stats 2 [some 2]] ∧ (exRun ["s"] okWorld).2.data 1 = exFile := by
  exact ⟨by decide +kernel, by decide +kernel⟩

/-- C34 with a real repetition: the second entry is written without another query. -/
example : (exRun ["s"] (syncWorld (exIdx [exC2, exC2, exC1]) [] [] manySys)).1 = .ok true ∧
    (exRun ["s"] (syncWorld (exIdx [exC2, exC2, exC1]) [] [] manySys)).2.data 3 = exC2 ++ exC2 ++ exC1 ∧
    queriesOf (exRun ["s"] (syncWorld (exIdx [exC2, exC2, exC1]) [] [] manySys)).2.log = [syncEnv.H exC2, syncEnv.H exC1] :=
  ⟨by decide +kernel, by decide +kernel, by decide +kernel⟩

/-- A case of C31: the first region matches, the second does not. -/
example : Matches syncEnv.H (exC1 ++ exC1) ⟨0, 50, syncEnv.H exC1⟩ ∧ ¬ Matches syncEnv.H (exC1 ++ exC1) ⟨50, 10, syncEnv.H exC2⟩ ∧
    (exRun ["s"] (syncWorld (exIdx [exC1, exC2]) (exC1 ++ exC1) [] manySys)).1 = .ok true ∧
    writesOf (exRun ["s"] (syncWorld (exIdx [exC1, exC2]) (exC1 ++ exC1) [] manySys)).2.log = [(50, exC2)] ∧ Clean manySys :=
  ⟨⟨by decide +kernel, by decide +kernel⟩, fun h => absurd h.2 (by decide +kernel), by decide +kernel, by decide +kernel, by decide +kernel, by decide +kernel⟩

/-- A case of the second run of C32: what the killed run has left. -/
example : writesOf (exRun ["s"] { okWorld with sys := manySys.take 21 ++ [.some 4] }).2.log = [(0, exC1), (50, exC2.take 5)] ∧
    writesOf (exRun ["s"] { okWorld with data := (exRun ["s"] { okWorld with sys := manySys.take 21 ++ [.some 4] }).2.data }).2.log = [(50, exC2)] :=
  ⟨by decide +kernel, by decide +kernel⟩

/-- A case of C33: the hypothesis about the arguments. -/
theorem okUsable (target : Bytes) (ht : target.length < 2 ^ 56) : Usable syncEnv (syncWorld (exIdx [exC1, exC2]) target [] manySys) (str "i") (str "t") [str "s"] where
  clean := show Clean manySys from ⟨by decide +kernel, by decide +kernel⟩
  mem := List.not_mem_nil
  files := by
    intro path i h
    have e1 : exFile.length < 2 ^ 56 := by decide +kernel
    have e2 : (exIdx [exC1, exC2]).length < 2 ^ 56 := by decide +kernel
    simp only [syncWorld] at h ⊢
    split
    · exact e1
    · split
      · exact e2
      · split
        · exact ht
        · split <;> exact Nat.two_pow_pos 56
  given := by simp
  kcapi := by decide +kernel
  target := ⟨3, rfl⟩
  index := by
    refine ⟨2, 10, 20, 50, 2, rfl, by simp [syncWorld], okIdx_wf, by decide, ?_⟩
    intro arg ha path idx hl
    simp only [List.mem_singleton] at ha
    subst ha
    obtain ⟨rfl, rfl⟩ := localArg_eq hl (show LocalArg (str "t") (str "s") (str "s") none from ⟨by decide, by decide, by decide, rfl⟩)
    refine ⟨⟨1, rfl, by simp [syncWorld], ?_⟩, by intro _ _ _ _ _ _ h; cases h⟩
    show 10 * 20 ≤ 12 * exFile.length
    decide +kernel
  urls := by
    intro arg ha hh
    simp only [List.mem_singleton] at ha
    subst ha
    exact absurd hh.2 (by decide)

/-- ... and both runs. -/
example : (exRun ["s"] okWorld).1 = .ok true ∧ (exRun ["s"] { okWorld with data := (exRun ["s"] okWorld).2.data }).1 = .ok true ∧
    writesOf (exRun ["s"] { okWorld with data := (exRun ["s"] okWorld).2.data }).2.log = [] :=
  ⟨by decide +kernel, by decide +kernel, by decide +kernel⟩

/-- Cases of C37: no target, no store, no index; a file that is no index. -/
example : Unusable syncEnv okWorld (str "i") (str "nt") [str "s"] ∧ Unusable syncEnv okWorld (str "i") (str "t") [str "s", str "ns"] ∧
    Unusable syncEnv okWorld (str "ni") (str "t") [str "s"] ∧ (∃ i, okWorld.dir (str "s") = some i ∧ ∀ mi av ma n, ¬ WellFormed (okWorld.data i) mi av ma n) := by
  refine ⟨Or.inr (Or.inr (Or.inl rfl)), Or.inr (Or.inr (Or.inr (Or.inr (Or.inl ⟨str "ns", by simp, str "ns", none, ⟨by decide, by decide, by decide, rfl⟩, rfl⟩)))),
    Or.inr (Or.inl rfl), 1, rfl, ?_⟩
  intro mi av ma n h
  have := h.headerMagic
  exact absurd this (by decide +kernel)

/-- An index without entries. -/
def voidIdx : Bytes := encode 10 20 50 []

/-- **C37 refuted in full**: the second store does not exist, but instead of exiting with failure the run trips an assertion
when it sets up the first. -/
theorem C37_abort_refuted : ∃ env w w' ipath tpath stores, Scene env w ipath tpath stores ∧ Unusable env w ipath tpath stores ∧
    csnMain env (ipath :: tpath :: stores) w = (.stop .abort, w') := by
  refine ⟨syncEnv, syncWorld voidIdx exC1 [] manySys, (exRun ["t", "ns"] (syncWorld voidIdx exC1 [] manySys)).2, str "i", str "t", [str "t", str "ns"],
    ?_, Or.inr (Or.inr (Or.inr (Or.inr (Or.inl ⟨str "ns", by simp, str "ns", none, ⟨by decide, by decide, by decide, rfl⟩, rfl⟩)))), pair_eq (by decide +kernel)⟩
  have hwf : WellFormed voidIdx 10 20 50 0 := encode_wellFormed ⟨by decide, by decide, by decide, by decide, by decide⟩
  have h0 : Scene syncEnv (syncWorld voidIdx exC1 [] manySys) (str "i") (str "t") [str "s"] := syncWorld_scene hwf _ (by simp) (by simp)
  refine ⟨h0.1, h0.2, h0.3, h0.4, ?_, fun _ => h0.6 ⟨str "s", by simp, str "s", none, by decide, by decide, by decide, rfl⟩, by decide⟩
  intro arg ha path index hl i hi
  simp only [List.mem_cons, List.not_mem_nil, or_false] at ha
  rcases ha with rfl | rfl
  · exact absurd rfl hl.1
  · obtain ⟨rfl, rfl⟩ := localArg_eq hl (show LocalArg (str "t") (str "ns") (str "ns") none from ⟨by decide, by decide, by decide, rfl⟩)
    cases (show (syncWorld voidIdx exC1 [] manySys).dir (str "ns") = none from rfl).symm.trans hi

end Csn.Props
