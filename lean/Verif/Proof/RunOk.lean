import Verif.Proof.RunAny
import Verif.Props.LocalExact
/-
Runs that must succeed.
-/
namespace Csn.Proof
open Csn Spec Props

/-- csn can start: system calls do not fail, memory suffices, files have less than 64 PiB; index and target exist; local
stores are large enough for their index to be set up, their side-loaded indices have neither no entries nor empty ones; keys of HTTP stores are well-formed. -/
structure Usable (env : Env) (w : World) (ipath tpath : Bytes) (stores : List Bytes) : Prop where
  clean : Clean w.sys
  mem : false ∉ w.mem
  files : ∀ path i, w.dir path = some i → (w.data i).length < 2 ^ 56
  given : stores ≠ []
  kcapi : env.kcapi ≠ some false
  target : ∃ ti, w.dir tpath = some ti
  index : ∃ ii mi av ma n, w.dir ipath = some ii ∧ w.kind ii ≠ .other ∧ WellFormed (w.data ii) mi av ma n ∧ (tpath ∈ stores → n ≠ 0) ∧
    ∀ arg ∈ stores, ∀ path idx, LocalArg tpath arg path idx →
      (∃ i, w.dir path = some i ∧ w.kind i ≠ .other ∧ 10 * av ≤ 12 * (w.data i).length) ∧
      ∀ ip i mi av ma n, idx = some ip → w.dir ip = some i → WellFormed (w.data i) mi av ma n →
        n ≠ 0 ∧ ∀ s ∈ delivered 0 (tableEntries (w.data i) n), s.len ≠ 0
  urls : ∀ arg ∈ stores, HttpArg tpath arg → arg.length < 2 ^ 62 ∧ ∃ whole frag k, FragOf arg whole frag ∧ ParamsKey (SpecKey env.getenv w) (frag.getD []) k

theorem localArg_eq {tpath arg path path' : Bytes} {index index' : Option Bytes} (h : LocalArg tpath arg path index) (h' : LocalArg tpath arg path' index') :
    path = path' ∧ index = index' := by
  obtain ⟨_, _, h1, h2⟩ := h
  obtain ⟨_, _, h1', h2'⟩ := h'
  have cut : ∀ (p p' r r' : Bytes), 0x3a ∉ p → 0x3a ∉ p' → p ++ 0x3a :: r = p' ++ 0x3a :: r' → p = p' ∧ r = r' := by
    intro p
    induction p with
    | nil =>
      intro p' r r' _ hp' e
      cases p' with
      | nil => simpa using e
      | cons x p' =>
        simp only [List.nil_append, List.cons_append, List.cons.injEq] at e
        exact absurd (by simp [e.1]) hp'
    | cons x p ih =>
      intro p' r r' hp hp' e
      cases p' with
      | nil =>
        simp only [List.nil_append, List.cons_append, List.cons.injEq] at e
        exact absurd (by simp [e.1]) hp
      | cons y p' =>
        simp only [List.cons_append, List.cons.injEq] at e
        simp only [List.mem_cons, not_or] at hp hp'
        obtain ⟨a, b⟩ := ih p' r r' hp.2 hp'.2 e.2
        exact ⟨by rw [e.1, a], b⟩
  cases index with
  | none =>
    cases index' with
    | none => simp only at h2 h2'; exact ⟨by rw [← h2, h2'], rfl⟩
    | some i => simp only at h2 h2'; exact absurd (by rw [← h2, h2']; simp) h1
  | some i =>
    cases index' with
    | none => simp only at h2 h2'; exact absurd (by rw [← h2', h2]; simp) h1'
    | some i' =>
      simp only at h2 h2'
      obtain ⟨a, b⟩ := cut _ _ _ _ h1 h1' (h2.symm.trans h2')
      exact ⟨a, by rw [b]⟩

theorem Usable.notScarce {env : Env} {w : World} {ipath tpath : Bytes} {stores : List Bytes} (h : Usable env w ipath tpath stores) : ¬ Scarce w := by
  rintro (g | g | ⟨path, i, g1, g2⟩)
  · exact g h.clean
  · exact h.mem g
  · have := h.files path i g1; omega

theorem Usable.starts {env : Env} {w : World} {ipath tpath : Bytes} {stores : List Bytes} (h : Usable env w ipath tpath stores) :
    ¬ StartFails env w ipath tpath stores := by
  obtain ⟨ii, mi, av, ma, n, i1, i2, i3, i4, i5⟩ := h.index
  rintro (g | g | g | g | g | ⟨i, g1, g2⟩ | ⟨arg, ha, g⟩)
  · exact h.notScarce g
  · exact h.given g
  · exact h.kcapi g
  · rw [i1] at g; cases g
  · obtain ⟨ti, ht⟩ := h.target
    rw [ht] at g; cases g
  · rw [i1] at g1
    cases g1
    rcases g2 with g2 | g2
    · exact i2 g2
    · exact g2 _ _ _ _ i3
  · rcases g with ⟨g1, g2⟩ | ⟨path, index, g1, g2⟩
    · obtain ⟨u1, whole, frag, k, u2, u3⟩ := h.urls arg ha g1
      rcases g2 with g2 | g2
      · omega
      · exact g2 whole frag u2 k u3
    · obtain ⟨⟨i, k1, k2, _⟩, _⟩ := i5 arg ha path index g1
      rcases g2 with g | g | g | ⟨j, g3, g4⟩
      · exact g h.clean
      · exact h.mem g
      · rw [k1] at g; cases g
      · rw [k1] at g3
        cases g3
        rcases g4 with g4 | g4
        · exact k2 g4
        · have := h.files path i k1; omega

theorem Usable.noAbort {env : Env} {w : World} {ipath tpath : Bytes} {stores : List Bytes} (h : Usable env w ipath tpath stores) :
    ¬ StartAborts w ipath tpath stores := by
  obtain ⟨ii, mi, av, ma, n, i1, i2, i3, i4, i5⟩ := h.index
  rintro ⟨i, n', p, g1, g2, arg, ha, g3⟩
  rw [i1] at g1
  cases g1
  obtain ⟨rfl, e2, rfl, rfl⟩ := wellFormed_unique i3 g2
  rcases g3 with ⟨g3, g4⟩ | ⟨path, index, g3, g4⟩
  · exact i4 (g3 ▸ ha) g4
  · obtain ⟨⟨i, k1, k2, k3⟩, k4⟩ := i5 arg ha path index g3
    rcases g4 with ⟨j, g5, g6⟩ | ⟨ip, j, g5, g6, mi', av', ma', n', g7, g8⟩
    · rw [k1] at g5
      cases g5
      have hf := h.files path i k1
      rw [C57_estimate_zero p _ (by have := g2.mono; omega) (by omega)] at g6
      omega
    · obtain ⟨k5, k6⟩ := k4 ip j mi' av' ma' n' g5 g6 g7
      rcases g8 with g8 | ⟨s, g8, g9⟩
      · exact k5 g8
      · exact k6 s g8 g9

theorem Usable.noRisk {env : Env} {w : World} {ipath tpath : Bytes} {stores : List Bytes} (h : Usable env w ipath tpath stores) :
    ¬ ∃ arg ∈ stores, ∃ path index i, LocalArg tpath arg path index ∧ w.dir path = some i ∧ Risk w i := by
  obtain ⟨ii, mi, av, ma, n, i1, i2, i3, i4, i5⟩ := h.index
  rintro ⟨arg, ha, path, index, i, g1, g2, g3⟩
  obtain ⟨⟨j, k1, k2, _⟩, _⟩ := i5 arg ha path index g1
  rw [g2] at k1
  cases k1
  rcases g3 with g | g | g | g
  · exact g h.clean
  · exact h.mem g
  · have := h.files path i g2; omega
  · exact k2 g

theorem matches_end {H : Bytes → Id} {f : Bytes} {s : Seg} (h : Matches H f s) (h0 : s.len ≠ 0) : s.off + s.len ≤ f.length := by
  have := h.1
  unfold slice at this
  simp only [List.length_take, List.length_drop] at this
  omega

theorem total_le_of_matches {H : Bytes → Id} {f : Bytes} {segs : List Seg} (hso : SegsOk segs) (hf : f.length < 2 ^ 63) : ∀ (n : Nat) (pre rest : List Seg), pre.length = n →
    segs = pre ++ rest → (∀ s ∈ pre, Matches H f s) → total pre ≤ f.length
  | 0, pre, rest, hn, _, _ => by
    rw [List.length_eq_zero_iff.1 hn]; simp [total_nil]
  | n + 1, pre, rest, hn, he, hm => by
    rcases List.eq_nil_or_concat pre with h | ⟨a, x, h⟩
    · subst h; simp at hn
    · subst h
      rw [List.concat_eq_append] at *
      rw [total_append, total_cons, total_nil, Nat.add_zero]
      simp only [List.length_append, List.length_cons, List.length_nil, Nat.add_right_cancel_iff] at hn
      rw [List.append_assoc, List.singleton_append] at he
      have ih := total_le_of_matches hso hf n a (x :: rest) (by omega) he (fun s hs => hm s (by simp [hs]))
      have ho := (hso _ _ _ he).1
      by_cases h0 : x.len = 0
      · omega
      · have := matches_end (hm x (by simp)) h0
        omega

/-- Analysis of runs for which everything is there. -/
def noopRun (env : Env) (tino : Nat) (w0 : World) (segs : List Seg) (P : Nat → Prop) : Cfg where
  env := env
  tino := tino
  w0 := w0
  segs := segs
  R := Regular segs
  T := fun _ => False
  CI := fun _ w subs => SubsInv env tino w0 w subs ∧ ∀ o ∈ subs.map (fun s => inoOf s.s), ∀ i, o = some i → P i
  CJ := fun _ _ w subs => SubsInv env tino w0 w subs ∧ ∀ o ∈ subs.map (fun s => inoOf s.s), ∀ i, o = some i → P i
  L := fun _ => True
  Bad := fun _ => False
  SOk := fun _ => False

/-- What holds if the target already is what the index says. -/
structure Synced (env : Env) (tino : Nat) (w : World) (segs : List Seg) : Prop where
  here : ∀ s ∈ segs, Matches env.H (w.data tino) s
  fit : ∀ s ∈ segs, s.len ≠ 0 ∧ s.len ≤ env.bufMax
  reg : Regular segs

theorem noopRun_ok {env : Env} {tino : Nat} {w0 : World} {segs : List Seg} {P : Nat → Prop} (hlib : env.lib.Conforms) (hs : SegsOk segs)
    (h : Synced env tino w0 segs) (hc : Clean w0.sys) (hl : (w0.data tino).length < 2 ^ 63) : (noopRun env tino w0 segs P).Ok := by
  refine ⟨hlib, hs, fun h => h, fun _ h => h.elim, ?_, ?_, ?_, ?_, ?_, ?_, ?_, ?_, ?_⟩
  · intro done w w' subs h hc
    exact ⟨SubsInv.away h.1 (hc.away _), h.2⟩
  · intro done seg w subs h
    exact h
  · intro done seg w subs d evs r mm h _ _ hr hm
    exact ⟨SubsInv.away h.1 (Away.wrote hr hm), h.2⟩
  · intro done seg w subs h _
    exact h
  · intro _ _ _ _; trivial
  · intro _ _ _ _ _; trivial
  · intro _ _ _ _ _; trivial
  · intro _ _ _ _ _ _; trivial
  · intro pre post seg rest c t out w hsh hun
    exfalso
    obtain ⟨x, tl, e⟩ : ∃ x tl, post ++ [seg] = x :: tl := by
      cases hp : post ++ [seg] with
      | nil => simp at hp
      | cons x tl => exact ⟨x, tl, rfl⟩
    have hx : x ∈ segs := by
      have h1 : x ∈ post ++ [seg] := by rw [e]; simp
      have h2 : segs = pre ++ post ++ (seg :: rest) := hsh.split
      rw [h2]
      rcases List.mem_append.1 h1 with h1 | h1
      · exact List.mem_append_left _ (List.mem_append_right _ h1)
      · exact List.mem_append_right _ (by rw [List.mem_singleton.1 h1]; simp)
    rcases hun x tl e with g | g | g
    · exact g (h.here x hx)
    · exact g hc
    · have := matches_end (h.here x hx) (h.fit x hx).1
      have g' : 2 ^ 63 ≤ x.off + x.len := g
      omega

/-- A run that finds everything on the target. -/
theorem run_noop {env : Env} {w : World} {ipath tpath : Bytes} {stores : List Bytes} (hsc : Scene env w ipath tpath stores)
    (hu : Usable env w ipath tpath stores) {segs : List Seg} {ti : Nat} (hd : Describes w ipath segs) (ht : w.dir tpath = some ti)
    (hsy : Synced env ti w segs) :
    wp (csnMain env (ipath :: tpath :: stores))
      (fun r w' => r = true ∧ ∃ pre post, Shape env.H env.bufMax (Regular segs) ti w segs pre post [] 0 [] w')
      (fun s _ => s = .killed) w := by
  unfold csnMain
  refine wp_bind (wp_mono (wp_csn hsc) ?_ ?_)
  · intro r w1 h
    obtain ⟨h1, h2⟩ := h
    cases r with
    | none => exact absurd h2 hu.starts
    | some s =>
      simp only at h2 ⊢
      have hb := h2.begun
      have hti : s.tgt.ino = ti := by have := hb.tgt; rw [ht] at this; cases this; rfl
      have hseg := Describes.unique hd hb.idx
      have hso := Describes.segsOk hd
      have hl := hu.files tpath ti ht
      have hi := hu.files ipath _ h2.idx
      have hok : (noopRun env ti w segs (LocalIno w tpath stores)).Ok := noopRun_ok hsc.lib hso hsy hu.clean (by omega)
      refine wp_sync (G := noopRun env ti w segs (LocalIno w tpath stores)) hok hsc h2 hti hseg ⟨by have := subsInv_start hsc h2; rw [hti] at this; exact this, h2.inos⟩ (fun _ h => h.elim)
        (F := ∃ i, LocalIno w tpath stores i ∧ Risk w i) ?_ ?_ ?_ ?_
      · intro _ w' subs hci ⟨sub, hsub, l, hl, hf⟩
        exact ⟨l.ino, hci.2 (some l.ino) (List.mem_map.2 ⟨sub, hsub, by simp [hl, inoOf]⟩) _ rfl, ((hci.1 sub hsub).2 l hl).2 hf⟩
      · intro w' pre post e hs _ _
        exact ⟨rfl, pre, post, hs⟩
      · intro w' hf _
        exfalso
        have htot : total segs ≤ (w.data ti).length := total_le_of_matches hso (by omega) _ segs [] rfl (by simp) hsy.here
        rcases hf with (hf | hf | ⟨x, hf, hf'⟩ | hf | hf) | hf
        · exact hf hu.clean
        · exact hf
        · have := (hsy.fit x hf).2
          simp only [noopRun] at hf'
          omega
        · simp only [noopRun] at hf
          omega
        · simp only [noopRun] at hf
          omega
        · simp only [noopRun] at hf
          omega
      · intro st w' hst _
        rcases hst with (hst | hst | ⟨_, hst | ⟨x, hst, hst'⟩⟩ | hst) | hst
        · exact hst
        · exact hst.elim
        · exact absurd hu.clean hst
        · exact absurd hst' (hsy.fit x hst).1
        · exact absurd hsy.reg hst.2
        · obtain ⟨_, i, ⟨arg, ha, path, index, h3, h4⟩, h5⟩ := hst
          exact absurd ⟨arg, ha, path, index, i, h3, h4, h5⟩ hu.noRisk
  · intro s w1 h
    rcases h.2 with h | h
    · exact h
    · exact absurd h.2 hu.noAbort

end Csn.Proof
