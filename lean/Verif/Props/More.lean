import Verif.Proof.MoreFound
import Verif.Props.Avail
/-
C86: one more store.
-/
namespace Csn.Props
open Csn Spec Proof

/-- **C86**: if no chunk is looked for in vain, one more store given at the end changes nothing, however the run ends: the result,
the files and the requests are the same; only the statistics list the store. -/
theorem C86_same {env : Env} {ipath tpath x : Bytes} {stores : List Bytes} {w : World} (hne : stores ≠ []) (hm : w.mem = [])
    (hfew : stores.length < 2 ^ 57) (hx : HttpArg tpath x) (hplain : 0x23 ∉ x) (hlen : x.length < 2 ^ 32)
    (hfound : NoneMissing (csnMain env (ipath :: tpath :: stores) w).2) :
    SameRun (csnMain env (ipath :: tpath :: stores) w) (csnMain env (ipath :: tpath :: (stores ++ [x])) w) := by
  rcases more_csnMain (env := env) (ipath := ipath) hm hne hfew hx hplain hlen with h | ⟨⟨id, h⟩, _⟩
  · exact h
  · exact absurd h (hfound id)

/-- **C86**: a store at the end that is not asked for anything can be left out. -/
theorem C86_unused {env : Env} {ipath tpath x : Bytes} {stores : List Bytes} {w : World} (hne : stores ≠ []) (hm : w.mem = [])
    (hfew : stores.length < 2 ^ 57) (hx : HttpArg tpath x) (hplain : 0x23 ∉ x) (hlen : x.length < 2 ^ 32)
    (hnot : NeverAsked stores.length (csnMain env (ipath :: tpath :: (stores ++ [x])) w).2) :
    SameRun (csnMain env (ipath :: tpath :: stores) w) (csnMain env (ipath :: tpath :: (stores ++ [x])) w) := by
  rcases more_csnMain (env := env) (ipath := ipath) hm hne hfew hx hplain hlen with h | ⟨_, id, h⟩
  · exact h
  · exact absurd h (hnot id)

/-- **C86**: a run that succeeds, with an index without empty regions, still succeeds with one more store, with the same files. -/
theorem C86_success {env : Env} {ipath tpath x : Bytes} {stores : List Bytes} {w w1 : World} {segs : List Seg} (hm : w.mem = [])
    (hlog : w.log = []) (hst : Stage env w ipath tpath stores) (hd : Describes w ipath segs) (hreg : ∀ s ∈ segs, s.len ≠ 0)
    (hx : HttpArg tpath x) (hplain : 0x23 ∉ x) (hlen : x.length < 2 ^ 32)
    (hrun : csnMain env (ipath :: tpath :: stores) w = (.ok true, w1)) :
    ∃ w2, csnMain env (ipath :: tpath :: (stores ++ [x])) w = (.ok true, w2) ∧ w2 = { w1 with log := w2.log } ∧ ExtraLine w1.log w2.log := by
  have hne : stores ≠ [] := by
    rintro rfl
    have : csnMain env [ipath, tpath] w = (.ok false, w) := rfl
    rw [this] at hrun
    cases hrun
  have hf := wp_csnMain_found hst hd hreg (fun id h => by rw [hlog] at h; cases h)
  have hs := C86_same (env := env) (ipath := ipath) hne hm hst.few hx hplain hlen (by
    unfold wp at hf
    rw [hrun] at hf ⊢
    exact hf rfl)
  rw [hrun] at hs
  obtain ⟨s1, s2, s3⟩ := hs
  refine ⟨_, pair_eq s1, s2, ?_⟩
  rcases s3 with h | ⟨h, _⟩
  · exact h
  · exact absurd rfl h

/-! ### Cases -/

/-- The hypotheses: a run that succeeds with a local store, with a server in addition that cannot be reached at all. -/
example : ∃ w2, csnMain syncEnv [str "i", str "t", str "s", str "http://h/"] okWorld = (.ok true, w2) ∧
    w2.data 3 = exC1 ++ exC2 ++ List.replicate 10 9 ∧ ExtraLine (exRun ["s"] okWorld).2.log w2.log := by
  obtain ⟨r1, r2⟩ := okRun
  generalize (exRun ["s"] okWorld).2 = w1 at r1 r2 ⊢
  obtain ⟨w2, h1, h2, h3⟩ := C86_success (x := str "http://h/") rfl rfl okScene.stage (syncWorld_describes okIdx_wf)
    (by decide +kernel) ⟨by decide, by decide⟩ (by decide) (by decide) r1
  refine ⟨w2, h1, ?_, h3⟩
  rw [h2]
  exact r2

/-- An index with an empty region between two chunks, under the ID of a chunk. -/
def gapIdx : Bytes := oddIdx [(50, exC1), (0, exC3), (10, exC2)]

def gapWorld : World := { syncWorld gapIdx (List.replicate 70 9) [] manySys with net := [serveC3] }

/-- **C86** needs that no region is empty: nothing is required of such a region unless some store has a chunk for its ID.  Then a
store that has it makes the run fail. -/
theorem C86_empty_region : (exRun ["s"] gapWorld).1 = .ok true ∧ (exRun ["s", "http://h"] gapWorld).1 = .ok false := by
  constructor <;> decide +kernel

/-- A run that fails half-way, as the target cannot be read any more. -/
def brokenWorld : World := syncWorld (exIdx [exC1, exC2]) (List.replicate 70 9) [] (List.replicate 19 (.some 999) ++ [.err])

/-- The answers in a log. -/
def answersIn : List Event → List (Option Nat)
  | [] => []
  | .answer _ n :: r => n :: answersIn r
  | _ :: r => answersIn r

theorem mem_answersIn {id : Id} {n : Option Nat} : ∀ l : List Event, .answer id n ∈ l → n ∈ answersIn l
  | [], h => by cases h
  | e :: r, h => by
    rcases List.mem_cons.1 h with h | h
    · subst h; exact List.mem_cons_self
    · have := mem_answersIn r h
      cases e <;> first | exact this | exact List.mem_cons_of_mem _ this

/-- The stores asked in a log. -/
def storesAsked : List Event → List Nat
  | [] => []
  | .ask k _ :: r => k :: storesAsked r
  | _ :: r => storesAsked r

theorem mem_storesAsked {id : Id} {k : Nat} : ∀ l : List Event, .ask k id ∈ l → k ∈ storesAsked l
  | [], h => by cases h
  | e :: r, h => by
    rcases List.mem_cons.1 h with h | h
    · subst h; exact List.mem_cons_self
    · have := mem_storesAsked r h
      cases e <;> first | exact this | exact List.mem_cons_of_mem _ this

/-- The hypotheses, for a run that fails: it has asked for a chunk, got it and written it. -/
example : (exRun ["s"] brokenWorld).1 = .ok false ∧ answersIn (exRun ["s"] brokenWorld).2.log = [some 50] ∧
    (exRun ["s"] brokenWorld).2.data 3 = exC1 ++ List.replicate 20 9 ∧ SameRun (exRun ["s"] brokenWorld) (exRun ["s", "http://h"] brokenWorld) := by
  have e : answersIn (exRun ["s"] brokenWorld).2.log = [some 50] := by decide +kernel
  refine ⟨by decide +kernel, e, by decide +kernel, ?_⟩
  refine C86_same (stores := [str "s"]) (by simp) rfl (by decide) ⟨by decide, by decide⟩ (by decide) (by decide) (fun id h => ?_)
  have := mem_answersIn _ h
  unfold exRun at e
  simp only [List.map_cons, List.map_nil] at e
  rw [e] at this
  simp at this

/-- The hypotheses: the second store is not asked for anything as the first one has all chunks. -/
example : storesAsked (exRun ["s", "http://h"] okWorld).2.log = [0, 0] ∧ SameRun (exRun ["s"] okWorld) (exRun ["s", "http://h"] okWorld) := by
  have e : storesAsked (exRun ["s", "http://h"] okWorld).2.log = [0, 0] := by decide +kernel
  refine ⟨e, ?_⟩
  refine C86_unused (stores := [str "s"]) (by simp) rfl (by decide) ⟨by decide, by decide⟩ (by decide) (by decide) (fun id h => ?_)
  have := mem_storesAsked _ h
  unfold exRun at e
  simp only [List.map_cons, List.map_nil] at e
  simp only [List.cons_append, List.nil_append] at this
  rw [e] at this
  simp at this

/-- Not the same run: a store that is asked. -/
example : ¬ NeverAsked 1 (exRun ["s", "http://h"] gapWorld).2 := by
  intro h
  have : (exRun ["s", "http://h"] gapWorld).2.log.any (fun e => e == .ask 1 (syncEnv.H exC3)) = true := by decide +kernel
  rw [List.any_eq_true] at this
  obtain ⟨e, h1, h2⟩ := this
  rw [beq_iff_eq] at h2
  rw [h2] at h1
  exact h _ h1

end Csn.Props
