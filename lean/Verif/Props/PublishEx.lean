import Verif.Props.Publish
/-
A case of C77.
-/
namespace Csn.Props
open Csn Spec Proof

/-- The environment of the examples, with the key stream of encrypt.c. -/
def pubEnv : Env := { syncEnv with ks := encryptStream }

theorem pub_sane : Sane pubEnv := by
  intro hist room data k o h
  simp only [pubEnv] at h
  exact syncEnv_sane _ _ _ _ _ h

theorem pub_H (c : Bytes) : pubEnv.H c = syncEnv.H c := by simp only [pubEnv]

/-- Contents of the file of a chunk. -/
def pubFrame (c : Bytes) : Bytes := [0x28, 0xb5, 0x2f, 0xfd] ++ c

/-- A directory "d" with two chunks. -/
def pubDir : World where
  data := fun i => if i = 1 then pubFrame exC1 else if i = 2 then pubFrame exC3 else []
  kind := fun _ => .reg
  dir := fun p => if p = chunkUrl (str "d") false (pubEnv.H exC1) then some 1 else if p = chunkUrl (str "d") false (pubEnv.H exC3) then some 2 else none
  next := 3
  sys := List.replicate 30 (.some 1000)
  mem := []
  net := []
  log := []

def pubTool : Tool := ⟨fun _ => none, ([exC1, exC3, exC1].map (fun c => chunkUrl (str "d") false (pubEnv.H c) ++ [0x0a])).flatten, 5, 0, false⟩

/-- What csn-tool leaves. -/
def pubDir' : World := (toolMain pubTool [str "crypt", tSpec] pubDir).2

theorem pub_tool : (toolMain pubTool [str "crypt", tSpec] pubDir).1 = .ok true := by decide +kernel

theorem pub_run : toolMain pubTool [str "crypt", tSpec] pubDir = (.ok true, pubDir') := by
  have h := pub_tool
  unfold pubDir'
  generalize toolMain pubTool [str "crypt", tSpec] pubDir = x at h ⊢
  obtain ⟨a, b⟩ := x
  simp only at h
  rw [h]

/-- A server that has one file. -/
def pubServe1 (c url : Bytes) (els : CurlRun) : CurlRun :=
  if url = chunkUrl (str "http://h") true (pubEnv.H c) then
    match pubDir'.dir (chunkUrl (str "d") true (pubEnv.H c)) with
    | some o => ⟨[pubDir'.data o], 0, some 200⟩
    | none => ⟨[], 0, some 404⟩
  else els

/-- The server. -/
def pubServe (url : Bytes) : CurlRun := pubServe1 exC1 url (pubServe1 exC3 url ⟨[], 0, some 404⟩)

def pubArg : Bytes := str "http://h/#encrypt=" ++ tSpec

/-- The machine to be updated: an empty target; the network is unreachable at first. -/
def pubWorld : World := { syncWorld mixIdx [] [] manySys with net := [fun _ => ⟨[], 7, none⟩, pubServe, pubServe, pubServe] }

theorem pub_ids : ∀ c ∈ [exC1, exC3, exC1], (pubEnv.H c).length = 32 := by decide +kernel

theorem pubDir_fresh : Fresh pubDir := by
  intro p i h
  simp only [pubDir] at h ⊢
  split at h
  · cases h; omega
  · split at h
    · cases h; omega
    · cases h

theorem pub_urls : chunkUrl (str "d") false (pubEnv.H exC3) ≠ chunkUrl (str "d") false (pubEnv.H exC1) := by decide +kernel

theorem pub_stock : ∀ c ∈ [exC1, exC3, exC1], Stocked pubEnv pubDir (str "d") c := by
  have h1 : Stocked pubEnv pubDir (str "d") exC1 :=
    ⟨1, _, by simp [pubDir], by show (pubFrame exC1).length < _; decide +kernel, by show (pubFrame exC1).take 4 = _; rfl, by exact toy_frame exC1⟩
  have h3 : Stocked pubEnv pubDir (str "d") exC3 :=
    ⟨2, _, by simp [pubDir, pub_urls], by show (pubFrame exC3).length < _; decide +kernel, by show (pubFrame exC3).take 4 = _; rfl, by exact toy_frame exC3⟩
  intro c hc
  simp only [List.mem_cons, List.not_mem_nil, or_false] at hc
  rcases hc with rfl | rfl | rfl
  · exact h1
  · exact h3
  · exact h1

theorem pub_new : ∀ c ∈ [exC1, exC3, exC1], pubDir.dir (chunkUrl (str "d") true (pubEnv.H c)) = none := by decide +kernel

theorem pub_key {getenv : Bytes → Option Bytes} {w : World} : KeyOf getenv w tSpec tKey :=
  ⟨_, .key _, by decide +kernel, (parseHex_iff (n := 32) (by decide +kernel) _).mp (by decide +kernel)⟩

theorem pub_made (c : Bytes) (hc : c ∈ [exC1, exC3, exC1]) :
    ∃ o, pubDir'.dir (chunkUrl (str "d") true (pubEnv.H c)) = some o ∧ pubDir'.data o ≠ [] ∧ (pubDir'.data o).length ≤ 54 := by
  obtain ⟨i, o, I, h1, _, h3, _, h5, h6⟩ := crypt_stock (env := pubEnv) (root := str "d") (cs := [exC1, exC3, exC1]) (key := tKey) pubDir_fresh (by simp [pubDir])
    ⟨by decide, by decide, by decide, by decide⟩ pub_ids pub_stock pub_new rfl pub_key pub_run c hc
  have hlen : (pubDir.data i).length ≤ 54 := by
    have e1 : (pubFrame exC1).length ≤ 54 := by decide +kernel
    have e3 : (pubFrame exC3).length ≤ 54 := by decide +kernel
    simp only [pubDir]
    split
    · exact e1
    · split
      · exact e3
      · simp
  refine ⟨o, h5, fun e => ?_, ?_⟩
  · have := h6 0
    rw [e] at this
    cases hd : pubDir.data i with
    | nil => rw [hd] at h3; simp at h3
    | cons x xs => rw [hd] at this; simp at this
  · refine Nat.le_trans (Nat.le_of_not_lt fun h => ?_) hlen
    have := h6 (pubDir.data i).length
    rw [List.getElem?_eq_getElem h, List.getElem?_eq_none (Nat.le_refl _)] at this
    simp at this

theorem pubServe_cases (url : Bytes) : (∃ o, pubServe url = ⟨[pubDir'.data o], 0, some 200⟩ ∧ pubDir'.data o ≠ [] ∧ (pubDir'.data o).length ≤ 54) ∨ pubServe url = ⟨[], 0, some 404⟩ := by
  unfold pubServe pubServe1
  split
  · obtain ⟨o, h1, h2, h3⟩ := pub_made exC1 (by simp)
    rw [h1]
    exact Or.inl ⟨o, rfl, h2, h3⟩
  · split
    · obtain ⟨o, h1, h2, h3⟩ := pub_made exC3 (by simp)
      rw [h1]
      exact Or.inl ⟨o, rfl, h2, h3⟩
    · exact Or.inr rfl

theorem pubServe_polite (url : Bytes) : Polite 54 (pubServe url) := by
  rcases pubServe_cases url with ⟨o, h, h1, h2⟩ | h <;> rw [h]
  · exact ⟨rfl, ⟨200, rfl, Or.inl (by decide)⟩, by simpa using ⟨h1, Nat.lt_of_le_of_lt h2 (by decide)⟩, by simpa using h2⟩
  · exact ⟨rfl, ⟨404, rfl, Or.inr (Or.inl rfl)⟩, by simp, by simp⟩

theorem pub_answers : Answers 54 pubWorld.net (str "http://h") true := by
  refine ⟨?_, ?_, by decide⟩
  · intro g hg id _
    simp only [pubWorld, List.mem_cons, List.not_mem_nil, or_false] at hg
    rcases hg with rfl | rfl | rfl | rfl
    · exact Or.inl ⟨rfl, by unfold TransientCode; simp⟩
    · exact Or.inr (pubServe_polite _)
    · exact Or.inr (pubServe_polite _)
    · exact Or.inr (pubServe_polite _)
  · intro id _ a b c e _
    have := congrArg List.length e
    simp [pubWorld] at this
    omega

theorem pub_hurls : chunkUrl (str "http://h") true (pubEnv.H exC3) ≠ chunkUrl (str "http://h") true (pubEnv.H exC1) := by decide +kernel

theorem pub_mirrors : Mirrors pubEnv pubDir' (str "d") pubWorld.net (str "http://h") true [exC1, exC3, exC1] := by
  have hs : ∀ c ∈ [exC1, exC3, exC1], (pubServe (chunkUrl (str "http://h") true (pubEnv.H c))).http = some 200 ∧
      ∃ o, pubDir'.dir (chunkUrl (str "d") true (pubEnv.H c)) = some o ∧ (pubServe (chunkUrl (str "http://h") true (pubEnv.H c))).frags.flatten = pubDir'.data o := by
    have h1 : pubServe (chunkUrl (str "http://h") true (pubEnv.H exC1)) = pubServe1 exC1 (chunkUrl (str "http://h") true (pubEnv.H exC1)) ⟨[], 0, some 404⟩ := by
      unfold pubServe pubServe1
      rw [if_pos rfl, if_pos rfl]
    have h3 : pubServe (chunkUrl (str "http://h") true (pubEnv.H exC3)) = pubServe1 exC3 (chunkUrl (str "http://h") true (pubEnv.H exC3)) ⟨[], 0, some 404⟩ := by
      unfold pubServe
      conv => lhs; unfold pubServe1
      rw [if_neg pub_hurls]
      rfl
    intro c hc
    obtain ⟨o, g1, _⟩ := pub_made c hc
    have hc' : pubServe (chunkUrl (str "http://h") true (pubEnv.H c)) = ⟨[pubDir'.data o], 0, some 200⟩ := by
      simp only [List.mem_cons, List.not_mem_nil, or_false] at hc
      rcases hc with rfl | rfl | rfl
      · rw [h1, pubServe1, if_pos rfl, g1]
      · rw [h3, pubServe1, if_pos rfl, g1]
      · rw [h1, pubServe1, if_pos rfl, g1]
    rw [hc']
    exact ⟨rfl, o, g1, by simp⟩
  intro c hc g hg hn
  simp only [pubWorld, List.mem_cons, List.not_mem_nil, or_false] at hg
  rcases hg with rfl | rfl | rfl | rfl
  · exact absurd ⟨rfl, by unfold TransientCode; simp⟩ hn
  · exact hs c hc
  · exact hs c hc
  · exact hs c hc

theorem pub_http : HttpArg (str "t") pubArg := ⟨by decide +kernel, by decide +kernel⟩

theorem pub_not_local {path : Bytes} {index : Option Bytes} : ¬ LocalArg (str "t") pubArg path index := fun h => absurd (by decide +kernel) h.2.1

theorem pub_base : BaseOf pubArg (str "http://h") (some (str "encrypt=" ++ tSpec)) := by
  refine ⟨str "http://h/", ⟨by decide +kernel, by decide +kernel⟩, Or.inl (by decide)⟩

theorem pub_scene : Scene pubEnv pubWorld (str "i") (str "t") [pubArg] := by
  have h0 : Scene syncEnv (syncWorld mixIdx [] [] manySys) (str "i") (str "t") [str "s"] := syncWorld_scene mixIdx_wf _ (by simp) (by simp)
  refine ⟨h0.lib, pub_sane, ?_, h0.apart, ?_, ?_, by decide⟩
  · intro f hf url x hx
    simp only [pubWorld, List.mem_cons, List.not_mem_nil, or_false] at hf
    rcases hf with rfl | rfl | rfl | rfl
    · simp at hx
    · exact ((pubServe_polite url).frags x hx).2
    · exact ((pubServe_polite url).frags x hx).2
    · exact ((pubServe_polite url).frags x hx).2
  · intro arg ha path index hl
    rw [List.mem_singleton.1 ha] at hl
    exact absurd hl pub_not_local
  · rintro ⟨arg, ha, path, index, hl⟩
    rw [List.mem_singleton.1 ha] at hl
    exact absurd hl pub_not_local

theorem pub_usable : Usable pubEnv pubWorld (str "i") (str "t") [pubArg] := by
  refine ⟨mixUsable.clean, mixUsable.mem, mixUsable.files, by simp, by simp only [pubEnv]; exact mixUsable.kcapi, mixUsable.target, ?_, ?_⟩
  · refine ⟨2, 10, 20, 50, 3, rfl, by simp [pubWorld, syncWorld], mixIdx_wf, by decide, ?_⟩
    intro arg ha path idx hl
    rw [List.mem_singleton.1 ha] at hl
    exact absurd hl pub_not_local
  · intro arg ha _
    rw [List.mem_singleton.1 ha]
    exact ⟨by decide +kernel, str "http://h/", some (str "encrypt=" ++ tSpec), some tKey, ⟨by decide +kernel, by decide +kernel⟩,
      .last tSpec tKey (by decide +kernel) ((specKey_iff _ _ _ _).mpr pub_key)⟩

theorem pub_index : pubWorld.data 2 = encode 10 20 50 ([exC1, exC3, exC1].map (fun c => (c.length, pubEnv.H c))) := by
  simp only [pub_H]
  rfl

/-- All hypotheses of `C77_encrypted` hold here. -/
example (o : Res Bool) (w' : World) (h : csnMain pubEnv [str "i", str "t", pubArg] pubWorld = (o, w')) :
    o = .stop .killed ∨ o = .ok true ∧ exC1 ++ exC3 ++ exC1 <+: w'.data 3 := by
  have := C77_encrypted (env := pubEnv) (root := str "d") (key := tKey) (cs := [exC1, exC3, exC1]) (mi := 10) (av := 20) (ma := 50) (ti := 3) (ii := 2) pubDir_fresh (by simp [pubDir])
    ⟨by decide, by decide, by decide, by decide⟩ pub_stock pub_new rfl pub_key pub_run
    (List.mem_singleton.2 rfl) pub_http (by simp only [pubEnv]) pub_base (.last tSpec tKey (by decide +kernel) pub_key) pub_mirrors pub_answers pub_scene pub_usable rfl rfl pub_index
    ⟨by decide, by decide, by decide, by decide, by decide⟩ (by decide +kernel) ?_ (by intro e; cases e) (by decide +kernel) h
  · simpa using this
  · intro c hc d _ e
    simp only [List.mem_cons, List.not_mem_nil, or_false] at hc
    rw [pub_H, pub_H] at e
    rcases hc with rfl | rfl | rfl
    · exact mark_eq.1 e
    · exact mark_eq.2 e
    · exact mark_eq.1 e

end Csn.Props
