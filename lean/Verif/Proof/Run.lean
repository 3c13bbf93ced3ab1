import Verif.Proof.Setup
import Verif.Proof.Inodes
/-
Whole runs of csn.
-/
namespace Csn.Proof
open Csn Spec Props

theorem wp_freeAll : ∀ (subs : List (Sub Store)) {Q : Unit → World → Prop} {S : Stop → World → Prop} {w : World},
    Q () w → ((∃ sub ∈ subs, ∃ l, sub.s = .loc l ∧ l.idx = .freed) → S .ub w) → wp (freeAll subs) Q S w
  | [], Q, S, w, hok, _ => by
    unfold freeAll
    exact wp_pure hok
  | s :: r, Q, S, w, hok, hub => by
    have rest : wp (freeAll r) Q S w := wp_freeAll r hok (fun ⟨sub, h1, h2⟩ => hub ⟨sub, by simp [h1], h2⟩)
    unfold freeAll
    cases hs : s.s with
    | loc l =>
      simp only
      unfold localFree
      cases hl : l.idx with
      | freed => exact wp_bind (wp_stop (hub ⟨s, by simp, l, hs, hl⟩))
      | live i => exact wp_bind (wp_pure rest)
      | null => exact wp_bind (wp_pure rest)
    | http h => exact wp_bind (wp_pure rest)
    | target => exact wp_bind (wp_pure rest)

/-- What is reported at the end: the number of regions skipped unless it is 0, queries and hits. -/
def told (n q : Nat) (hs : List (Option Nat)) : List Event := (if n = 0 then [] else [.skipped n]) ++ [.stats q hs]

/-- The log is `l` and such a report. -/
def Told (l : List Event) (n : Nat) (w : World) : Prop := ∃ q hs, w.log = l ++ told n q hs

/-- The end of a synchronisation. -/
theorem wp_finish {c : Cb} {Q : Bool → World → Prop} {S : Stop → World → Prop} {w : World}
    (h : ∀ w' evs, Calm w w' evs → (∀ e ∈ evs, TellEv e) → Told w.log c.skipped w' → Q true w' ∧ ((∃ sub ∈ c.chain.subs, ∃ l, sub.s = .loc l ∧ l.idx = .freed) → S .ub w')) : wp (finish c) Q S w := by
  have key : ∀ w1 evs, Calm w w1 evs → (∀ e ∈ evs, TellEv e) → evs = (if c.skipped = 0 then [] else [.skipped c.skipped]) →
      wp (do M.emit (.stats c.chain.queries (c.chain.subs.map (·.hits))); freeAll c.chain.subs; return true) Q S w1 := by
    intro w1 evs h1 h2 h4
    refine wp_bind (wp_emit ?_)
    have h3 := h _ _ (h1.trans (Calm.emit w1 (.stats c.chain.queries (c.chain.subs.map (·.hits))))) ?_ ⟨_, _, by rw [h1.log, h4, told, List.append_assoc]⟩
    · exact wp_bind (wp_freeAll _ (wp_pure h3.1) h3.2)
    · intro e he
      rcases List.mem_append.1 he with he | he
      · exact h2 e he
      · simp only [List.mem_singleton] at he
        exact Or.inr ⟨_, _, he⟩
  unfold finish reportSkipped
  split
  · exact wp_bind (wp_pure (key w [] (Calm.refl w) (by simp) (by simp [*])))
  · exact wp_bind (wp_emit (key _ _ (Calm.emit w _) (by intro e he; simp only [List.mem_singleton] at he; exact Or.inl ⟨_, he⟩) (by simp [*])))

theorem Shape.tell {H : Bytes → Id} {bufMax : Nat} {R : Prop} {tino : Nat} {w0 : World} {segs pre post rest : List Seg} {m : Nat} {w w' : World} {evs : List Event}
    (h : Shape H bufMax R tino w0 segs pre post rest m [] w) (hc : Calm w w' evs) (ht : ∀ e ∈ evs, TellEv e) : Shape H bufMax R tino w0 segs pre post rest m [] w' :=
  h.step hc (fun e he => Or.inr (Or.inr (Or.inr (Or.inr (Or.inr (Or.inl (ht e he))))))) (tellEv_none _ ht).1 (by rw [(tellEv_none _ ht).2]; simp) h.first h.one

/-- Synchronisation after a successful start. -/
theorem wp_sync {G : Cfg} (hG : G.Ok) {ipath tpath : Bytes} {stores : List Bytes} {s : Setup} {w1 : World}
    (hsc : Scene G.env G.w0 ipath tpath stores) (hr : Ready G.env G.w0 ipath tpath stores s w1) (htino : s.tgt.ino = G.tino)
    (hsegs : G.segs = delivered 0 (tableEntries (G.w0.data s.iino) s.n)) (hci : G.CI [] w1 s.chain.subs) (hT : ∀ n, G.T n → s.tgt.queryable = true ∧ n ≤ s.n)
    {F : Prop} (hF : ∀ done w subs, G.CI done w subs → (∃ sub ∈ subs, ∃ l, sub.s = .loc l ∧ l.idx = .freed) → F)
    {Q : Bool → World → Prop} {S : Stop → World → Prop}
    (hok : ∀ w' pre post, G.segs = pre ++ post → G.Shape pre post [] 0 [] w' → G.L w' → (∃ evs, Told (G.w0.log ++ evs) pre.length w') → Q true w')
    (hfail : ∀ w', (G.Fails w' ∨ 2 ^ 63 ≤ (G.w0.data s.iino).length) → G.Ended w' → Q false w')
    (hstop : ∀ st w', (G.Stops st ∨ st = .ub ∧ F) → G.Ended w' → S st w') : wp (sync G.env s) Q S w1 := by
  obtain ⟨⟨evs, hc1, hc2⟩, h2, h3, h4, t0, h5, h6⟩ := hr
  unfold sync
  have hmono := h3.mono
  refine wp_bind (wp_syncLoop hG h3.size (by omega) (by omega) hsegs ?_ rfl ?_ ?_ ?_ ?_)
  · intro e
    rw [htino, ← e] at h4
    exact hsc.apart _ h2 h4
  · refine ⟨htino, by simp, ⟨fun hq => (h6.idx hq).1, fun hq => ?_, fun hq e he => ?_, fun n hT' => ⟨(hT n hT').1, by simp, Nat.le_trans (hT n hT').2 (h6.idx (hT n hT').1).2.2⟩⟩, hci, [], [], rfl, ?_, ?_, ?_, rfl⟩
    · rw [(h6.idx hq).2.1]; simp
    · rw [(h6.idx hq).2.1] at he; simp at he
    · refine ⟨by simp, Nat.zero_le _, hc1.away _, by simp, by simp, by simp, by simp [total_nil], by simp [total_nil], by rw [hc1.data]; exact Nat.le_refl _, by simp, by simp, by simp [slice], ?_, ?_⟩
      · intro i _; rw [hc1.data]
      · obtain ⟨e1, e2⟩ := storeEv_none evs hc2
        refine ⟨evs, hc1.log, fun e he => Or.inr (Or.inr (Or.inr (Or.inr (Or.inr (Or.inr (hc2 e he)))))), ?_, ?_, ?_⟩
        · rw [e1]; simp [Contig]
        · rw [e2]; simp [runs]
        · rw [e1]; simp
    · intro _; exact ⟨rfl, rfl, by rw [hc1.data], evs, hc1.log, hc2⟩
    · intro h; simp at h
  · intro c' w' hl
    obtain ⟨pre, post, e1, e2, _, _, e4⟩ := hl.shape
    refine wp_finish ?_
    intro w2 evs hw2 htell htold
    rw [e4] at htold
    have e3 := e2.tell hw2 htell
    have hL := hG.tells _ _ _ (hG.kept _ _ _ hl.ci) htell hw2.log
    obtain ⟨evs', he', _⟩ := e2.log
    rw [he'] at htold
    exact ⟨hok w2 pre post e1 e3 hL ⟨evs', htold⟩, fun hh => hstop _ _ (Or.inr ⟨rfl, hF _ _ _ hl.ci hh⟩) ⟨⟨_, _, _, _, _, e3⟩, hL⟩⟩
  · intro c' w' h h'
    exact wp_pure (hfail w' h h')
  · intro st w' h h'
    exact hstop _ _ (Or.inl h) h'

theorem segsOk_delivered {f : Bytes} {n : Nat} (h : f.length = 104 + 40 * n) : SegsOk (delivered 0 (tableEntries f n)) := by
  intro done seg rest e
  obtain ⟨a, b, c, _⟩ := delivered_seg (tableEntries_ok f n h) (by omega) e
  exact ⟨by rw [a]; simp, b, c⟩

theorem Away.wrote {tino : Nat} {w : World} {o : Nat} {d : Bytes} {evs : List (Nat × Bytes)} {r : List Sys} {mm : List Bool}
    (hr : r <:+ w.sys) (hm : mm <:+ w.mem) : Away tino w { wrote w tino o d evs r with mem := mm } := by
  refine ⟨?_, rfl, rfl, rfl, hr, hm, List.suffix_refl _⟩
  intro i hi
  simp [Proof.wrote, hi]

/-- The stores made from the arguments satisfy the chain's invariant. -/
theorem subsInv_start {env : Env} {w w1 : World} {ipath tpath : Bytes} {stores : List Bytes} {s : Setup}
    (hsc : Scene env w ipath tpath stores) (hr : Ready env w ipath tpath stores s w1) :
    SubsInv env s.tgt.ino w w1 s.chain.subs := by
  obtain ⟨⟨evs, hc1, hc2⟩, h2, h3, h4, t0, h5, h6⟩ := hr
  intro sub hsub
  obtain ⟨k, hk⟩ := List.getElem?_of_mem hsub
  obtain ⟨ha, arg, g1, g2⟩ := h6.each k sub hk
  have hmem : arg ∈ stores := List.mem_of_getElem? g1
  cases hs : sub.s with
  | target => exact ⟨fun _ => trivial, fun l hl => by cases hl⟩
  | http h =>
    rw [hs] at g2
    obtain ⟨_, e1, e2, _⟩ := g2
    exact ⟨fun _ => ⟨by rw [e2]; omega, by rw [e1]; omega, hsc.short.suffix hc1.net⟩, fun l hl => by cases hl⟩
  | loc l =>
    rw [hs] at g2
    obtain ⟨path, index, d, e1, e2, e3, e4, e5, e6⟩ := g2
    have hne : l.ino ≠ s.tgt.ino := by
      intro e
      rw [← e] at h4
      exact hsc.own arg hmem path index e1 _ e2 h4
    refine ⟨fun _ => ⟨hne, by rw [hc1.data]; exact e5, d, by rw [e3]; exact e4⟩, ?_⟩
    intro l' hl'
    simp only [Store.loc.injEq] at hl'
    subst hl'
    refine ⟨hne, fun hf => ?_⟩
    obtain ⟨idx, g, _⟩ := e5
    rw [hf] at g; cases g

/-- Analysis of arbitrary runs; `P` holds for the files of local stores whose index is wrong. -/
def anyRun (env : Env) (tino : Nat) (w0 : World) (segs : List Seg) (P : Nat → Prop) : Cfg where
  env := env
  tino := tino
  w0 := w0
  segs := segs
  R := Regular segs
  T := fun _ => False
  CI := fun _ w subs => SubsInv env tino w0 w subs ∧ ∀ sub ∈ subs, Marked env.H tino w0 P sub.s
  CJ := fun _ _ w subs => SubsInv env tino w0 w subs ∧ ∀ sub ∈ subs, Marked env.H tino w0 P sub.s
  L := fun _ => True
  Bad := fun _ => True
  SOk := fun s => s = .killed ∨ s = .abort

theorem anyRun_ok {env : Env} {tino : Nat} {w0 : World} {segs : List Seg} {P : Nat → Prop} (hlib : env.lib.Conforms) (hz : Sane env) (hs : SegsOk segs) :
    (anyRun env tino w0 segs P).Ok := by
  refine ⟨hlib, hs, fun h => h, fun _ h => h.elim, ?_, ?_, ?_, ?_, ?_, ?_, ?_, ?_, ?_⟩
  · intro done w w' subs h hc
    exact ⟨SubsInv.away h.1 (hc.away _), h.2⟩
  · intro done seg w subs h
    exact h
  · intro done seg w subs d evs r mm h _ _ hr hm
    exact ⟨SubsInv.away h.1 (Away.wrote hr hm), h.2⟩
  · intro done seg w subs h _
    exact h
  · intro _ _ _ _; trivial
  · intro _ _ _ _ _; trivial
  · intro _ _ _ _ _; trivial
  · intro _ _ _ _ _ _; trivial
  · intro pre post seg rest c t out w hsh _ hci ht hti hout
    have hid := (hs _ _ _ hsh.split).2.2
    have ha := hsh.away
    unfold chainGet
    refine wp_bind (wp_emit ?_)
    have hce := Calm.emit w (.query seg.id)
    refine wp_bind (wp_mono (wp_and (wp_chainLoop_inv (R := Regular segs) (T := fun _ => False) (done := pre ++ post) (w0 := w0) hlib hz hid c.subs 0 t out _ hti (ha.trans (hce.away _)) (SubsInv.away hci.1 (hce.away _)) ht)
      (wp_chainLoop_marked hlib seg.id c.subs 0 t out _ hci.2 ha.data)) ?_ ?_)
    · intro a w' h
      obtain ⟨r, t', subs, out'⟩ := a
      obtain ⟨h, h'⟩ := h
      obtain ⟨evs, k1, k2⟩ := h.calm
      refine wp_bind (wp_emit (wp_pure ⟨(Calm.answered ⟨evs, hce.trans k1, k2⟩), fun _ => ⟨SubsInv.away h.subs ((Calm.emit w' (.answer seg.id r)).away _), h'⟩, trivial, h.tgt, h.len, h.data, fun _ => trivial⟩))
    · intro s w' h
      obtain ⟨⟨h1, evs, k1, k2⟩, _⟩ := h
      exact ⟨⟨h1.1, trivial⟩, evs, hce.trans k1, k2⟩

end Csn.Proof
