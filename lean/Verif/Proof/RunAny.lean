import Verif.Proof.Run
/-
What is known about every run of csn.
-/
namespace Csn.Proof
open Csn Spec Props

/-- Nothing but schedules and the log changed, and the log only by the work of stores. -/
def Untouched (w w' : World) : Prop := ∃ evs, Calm w w' evs ∧ ∀ e ∈ evs, StoreEv e

/-- The run got through its start: target and regions. -/
structure Begun (w : World) (ipath tpath : Bytes) (tino : Nat) (segs : List Seg) : Prop where
  tgt : w.dir tpath = some tino
  idx : Describes w ipath segs

theorem Ready.begun {env : Env} {w w1 : World} {ipath tpath : Bytes} {stores : List Bytes} {s : Setup} (hr : Ready env w ipath tpath stores s w1) :
    Begun w ipath tpath s.tgt.ino (delivered 0 (tableEntries (w.data s.iino) s.n)) :=
  ⟨hr.tgt, s.iino, _, _, _, s.n, hr.idx, hr.wf, rfl⟩

theorem wellFormed_unique {f : Bytes} {mi av ma n mi' av' ma' n' : Nat} (h : WellFormed f mi av ma n) (h' : WellFormed f mi' av' ma' n') :
    mi = mi' ∧ av = av' ∧ ma = ma' ∧ n = n' := by
  have a := h.sizes
  have b := h'.sizes
  have c := h.size
  have d := h'.size
  refine ⟨?_, ?_, ?_, ?_⟩ <;> omega

theorem Describes.unique {w : World} {ipath : Bytes} {a b : List Seg} (h : Describes w ipath a) (h' : Describes w ipath b) : a = b := by
  obtain ⟨i, mi, av, ma, n, h1, h2, h3⟩ := h
  obtain ⟨j, mi', av', ma', n', g1, g2, g3⟩ := h'
  rw [h1] at g1
  cases g1
  obtain ⟨_, _, _, e⟩ := wellFormed_unique h2 g2
  rw [h3, g3, e]

theorem Describes.segsOk {w : World} {ipath : Bytes} {a : List Seg} (h : Describes w ipath a) : SegsOk a := by
  obtain ⟨i, mi, av, ma, n, h1, h2, h3⟩ := h
  rw [h3]
  exact segsOk_delivered h2.size

/-- File `i` is given as a local store. -/
def LocalIno (w : World) (tpath : Bytes) (stores : List Bytes) (i : Nat) : Prop :=
  ∃ arg ∈ stores, ∃ path index, LocalArg tpath arg path index ∧ w.dir path = some i

theorem Ready.inos {env : Env} {w w1 : World} {ipath tpath : Bytes} {stores : List Bytes} {s : Setup} (hr : Ready env w ipath tpath stores s w1) :
    ∀ o ∈ s.chain.subs.map (fun s => inoOf s.s), ∀ i, o = some i → LocalIno w tpath stores i := by
  intro o ho i hi
  obtain ⟨sub, hsub, rfl⟩ := List.mem_map.1 ho
  obtain ⟨t0, _, happ⟩ := hr.app
  obtain ⟨k, hk⟩ := List.getElem?_of_mem hsub
  obtain ⟨_, arg, g1, g2⟩ := happ.each k sub hk
  cases hs : sub.s with
  | loc l =>
    rw [hs] at g2 hi
    obtain ⟨path, index, d, e1, e2, _⟩ := g2
    simp only [inoOf, Option.some.injEq] at hi
    exact ⟨arg, List.mem_of_getElem? g1, path, index, e1, hi ▸ e2⟩
  | http h => rw [hs] at hi; simp [inoOf] at hi
  | target => rw [hs] at hi; simp [inoOf] at hi

/-- File `i` is given as a local store together with an index that is wrong about it: some region has another content. -/
def SideWrong (H : Bytes → Id) (w : World) (tpath : Bytes) (stores : List Bytes) (i : Nat) : Prop :=
  ∃ arg ∈ stores, ∃ path index j, LocalArg tpath arg path (some index) ∧ w.dir path = some i ∧ w.dir index = some j ∧ WrongAbout H (w.data j) (w.data i)

theorem Ready.marked {env : Env} {w w1 : World} {ipath tpath : Bytes} {stores : List Bytes} {s : Setup} (hsc : Scene env w ipath tpath stores)
    (hr : Ready env w ipath tpath stores s w1) :
    ∀ sub ∈ s.chain.subs, Marked env.H s.tgt.ino w (SideWrong env.H w tpath stores) sub.s := by
  intro sub hsub l hs
  obtain ⟨t0, _, happ⟩ := hr.app
  obtain ⟨k, hk⟩ := List.getElem?_of_mem hsub
  obtain ⟨_, arg, g1, g2⟩ := happ.each k sub hk
  have hmem := List.mem_of_getElem? g1
  rw [hs] at g2
  obtain ⟨path, index, d, e1, e2, _, _, e5, e6⟩ := g2
  have hne : l.ino ≠ s.tgt.ino := by
    intro e
    have := hr.tgt
    rw [← e] at this
    exact hsc.own arg hmem path index e1 _ e2 this
  obtain ⟨idx, k1, k2, k3⟩ := e5
  cases e6 with
  | scan hv _ _ =>
    refine Or.inr ⟨hne, idx, k1, k2, fun e he _ => ?_⟩
    obtain ⟨idx', v1, v2⟩ := hv
    rw [k1] at v1
    cases v1
    exact ((k3 e he).2 (v2 e he)).2
  | sideload ip ino idx' h1 h2 h3 h4 _ =>
    subst h1
    rw [k1] at h3
    cases h3
    obtain ⟨n, h5, h6, _⟩ := h4
    by_cases hw : WrongAbout env.H (w.data ino) (w.data l.ino)
    · exact Or.inl ⟨arg, hmem, path, ip, ino, e1, e2, h2, hw⟩
    · refine Or.inr ⟨hne, idx, k1, k2, fun e he hlen => ?_⟩
      rw [h6] at he
      obtain ⟨x, hx, rfl⟩ := List.mem_map.1 he
      simp only [loaded] at hlen ⊢
      refine Classical.byContradiction fun hc => hw ⟨_, _, _, n, h5, x, hx, hlen, hc⟩

/-- Every run. -/
theorem run_any {env : Env} {w : World} {ipath tpath : Bytes} {stores : List Bytes} (hsc : Scene env w ipath tpath stores) :
    wp (csnMain env (ipath :: tpath :: stores))
      (fun r w' => (r = false ∧ StartFails env w ipath tpath stores ∧ Untouched w w') ∨
        ∃ tino segs, Begun w ipath tpath tino segs ∧ (∃ s w1, Ready env w ipath tpath stores s w1) ∧
          ∃ pre post rest m d, Shape env.H env.bufMax (Regular segs) tino w segs pre post rest m d w' ∧ (r = true → rest = [] ∧ m = 0 ∧ d = []))
      (fun s w' => ((s = .killed ∨ s = .abort ∧ StartAborts w ipath tpath stores) ∧ Untouched w w') ∨
        ∃ tino segs, Begun w ipath tpath tino segs ∧ (∃ s w1, Ready env w ipath tpath stores s w1) ∧
          (∃ pre post rest m d, Shape env.H env.bufMax (Regular segs) tino w segs pre post rest m d w') ∧
          (s = .ub → ¬ Regular segs ∨ ∃ arg ∈ stores, ∃ path index i j, LocalArg tpath arg path (some index) ∧ w.dir path = some i ∧
            w.dir index = some j ∧ WrongAbout env.H (w.data j) (w.data i) ∧ Risk w i)) w := by
  unfold csnMain
  refine wp_bind (wp_mono (wp_csn hsc) ?_ ?_)
  · intro r w1 h
    obtain ⟨h1, h2⟩ := h
    cases r with
    | none => exact wp_pure (Or.inl ⟨rfl, h2, h1⟩)
    | some s =>
      simp only at h2 ⊢
      have hb := h2.begun
      have hso := Describes.segsOk hb.idx
      generalize hg : delivered 0 (tableEntries (w.data s.iino) s.n) = segs at hb hso
      have hok : (anyRun env s.tgt.ino w segs (SideWrong env.H w tpath stores)).Ok := anyRun_ok hsc.lib hsc.sane hso
      refine wp_sync (G := anyRun env s.tgt.ino w segs (SideWrong env.H w tpath stores)) hok hsc h2 rfl hg.symm ⟨subsInv_start hsc h2, h2.marked hsc⟩ (fun _ h => h.elim)
        (F := ∃ i, SideWrong env.H w tpath stores i ∧ Risk w i) ?_ ?_ ?_ ?_
      · intro _ w' subs hci ⟨sub, hsub, l, hl, hf⟩
        rcases hci.2 sub hsub l hl with h | ⟨_, idx, h, _⟩
        · exact ⟨l.ino, h, ((hci.1 sub hsub).2 l hl).2 hf⟩
        · rw [hf] at h; cases h
      · intro w' pre post e hs _ _
        exact Or.inr ⟨_, segs, hb, ⟨s, w1, h2⟩, pre, post, [], 0, [], hs, fun _ => ⟨rfl, rfl, rfl⟩⟩
      · intro w' _ ⟨⟨pre, post, rest, m, d, hs⟩, _⟩
        exact Or.inr ⟨_, segs, hb, ⟨s, w1, h2⟩, pre, post, rest, m, d, hs, by simp⟩
      · intro st w' hst he
        refine Or.inr ⟨_, segs, hb, ⟨s, w1, h2⟩, he.1, fun hub => ?_⟩
        subst hub
        rcases hst with hst | ⟨_, i, ⟨arg, ha, path, index, j, h3, h4, h5, h6⟩, h7⟩
        · rcases hst with hst | hst | hst | hst
          · cases hst
          · rcases hst with hst | hst <;> cases hst
          · cases hst.1
          · exact Or.inl hst.2
        · exact Or.inr ⟨arg, ha, path, index, i, j, h3, h4, h5, h6, h7⟩
  · intro s w1 h
    exact Or.inl ⟨h.2, h.1⟩

end Csn.Proof
