import Verif.Proof.RunOk
/-
What failing runs have in their log.
-/
namespace Csn.Proof
open Csn Spec Props

/-- A rescan of the store would not be refused for an estimate of no chunks. -/
def LocFit (w0 : World) (s : Store) : Prop := ∀ l, s = .loc l → chunkEstimate l.p (w0.data l.ino).length ≠ 0

theorem wp_chainLoop_fit {env : Env} (hlib : env.lib.Conforms) (hz : Sane env) {R : Prop} {T : Nat → Prop} {id : Id} (hid : id.length = 32)
    {done : List Seg} {tino : Nat} {w0 : World} : ∀ (subs : List (Sub Store)) (i : Nat) (t : Tgt) (out : Bytes) (w : World), t.ino = tino →
    Away tino w0 w → SubsInv env tino w0 w subs → TgtInv env.H env.bufMax R T (w.data tino) done t → (∀ sub ∈ subs, LocFit w0 sub.s) →
    wp (chainLoop (storeGet env) id i t subs out) (fun a _ => ∀ sub ∈ a.2.2.1, LocFit w0 sub.s) (fun s _ => s = .killed) w
  | [], i, t, out, w, hti, _, hsub, ht, hf => by
    unfold chainLoop
    exact wp_pure (by simp)
  | sub :: subs, i, t, out, w, hti, hw0, hsub, ht, hf => by
    have hsub1 : SubsInv env tino w0 w subs := fun s hs => hsub s (by simp [hs])
    have hf1 : ∀ sub ∈ subs, LocFit w0 sub.s := fun s hs => hf s (by simp [hs])
    have hf0 : LocFit w0 sub.s := hf sub (by simp)
    have hsafe := (hsub sub (by simp)).2
    unfold chainLoop
    cases hact : sub.active with
    | false =>
      simp only [Bool.not_false, if_true]
      refine wp_bind (wp_mono (wp_chainLoop_fit hlib hz hid subs (i + 1) t out w hti hw0 hsub1 ht hf1) (fun a w' h => ?_) (fun s w' h => h))
      refine wp_pure ?_
      intro s hs
      simp only [List.mem_cons] at hs
      rcases hs with hs | hs
      · rw [hs]; exact hf0
      · exact h s hs
    | true =>
      simp only [Bool.not_true, Bool.false_eq_true, if_false]
      refine wp_bind (wp_emit ?_)
      have hce := Calm.emit w (.ask i id)
      have hst : StoreInv env t.ino { w with log := w.log ++ [.ask i id] } sub.s := by
        rw [hti]; exact ((hsub sub (by simp)).1 hact).away (hce.away _)
      refine wp_bind (wp_mono (wp_storeGet hlib hz hid hst (out := out) (R := R) (T := T) (done := done) (by rw [hti]; exact ht)) ?_ ?_)
      · intro a w1 h
        obtain ⟨r, t1, s1, out1⟩ := a
        rw [hti] at h
        have hc1 := Asked.askEv h.calm
        have hti1 : t1.ino = tino := h.tgt.ino.trans hti
        have hd1 : w1.data tino = w.data tino := by obtain ⟨evs, c, _⟩ := hc1; rw [c.data]
        have ht1 : TgtInv env.H env.bufMax R T (w1.data tino) done t1 := by rw [hd1]; exact ht.same h.tgt
        have haw : Away tino w w1 := by obtain ⟨evs, c, _⟩ := hc1; exact c.away _
        have hfit1 : LocFit w0 s1 := by
          intro l' hl'
          obtain ⟨l, e1, e2, e3⟩ := h.par l' hl'
          rw [e2, e3]
          exact hf0 l e1
        have rest : ∀ (w1' : World) (lg : List Event), Calm w1 w1' lg → ∀ (sub' : Sub Store), LocFit w0 sub'.s →
            wp (chainLoop (storeGet env) id (i + 1) t1 subs out1 >>= fun x => match x with
              | (r, t, subs, out) => (pure (r, t, sub' :: subs, out) : M (Option Nat × Tgt × List (Sub Store) × Bytes)))
              (fun a _ => ∀ sub ∈ a.2.2.1, LocFit w0 sub.s) (fun s _ => s = .killed) w1' := by
          intro w1' lg hlg sub' hsub'
          have haw := haw.trans (hlg.away tino)
          have ht1 : TgtInv env.H env.bufMax R T (w1'.data tino) done t1 := by rw [hlg.data]; exact ht1
          refine wp_bind (wp_mono (wp_chainLoop_fit hlib hz hid subs (i + 1) t1 out1 w1' hti1 (hw0.trans haw) (hsub1.away haw) ht1 hf1) ?_ (fun _ _ h => h))
          intro b w2 g
          refine wp_pure ?_
          intro s hs
          simp only [List.mem_cons] at hs
          rcases hs with hs | hs
          · rw [hs]; exact hsub'
          · exact g s hs
        cases r with
        | none => exact wp_bind (wp_emit (rest _ _ (Calm.emit w1 (.failed i)) { sub with s := s1, active := false } hfit1))
        | some n =>
          cases n with
          | zero => exact rest w1 [] (Calm.refl w1) { sub with s := s1, active := true } hfit1
          | succ n =>
            refine wp_pure ?_
            intro s hs
            simp only [List.mem_cons] at hs
            rcases hs with hs | hs
            · rw [hs]; exact hfit1
            · exact hf1 s hs
      · intro s w1 h
        rcases h.1 with h | ⟨_, l, e1, e2⟩
        · exact h
        · have hne := (hsafe l e1).1
          have : w.data l.ino = w0.data l.ino := hw0.data _ hne
          have e2' : chunkEstimate l.p (w.data l.ino).length = 0 := e2
          rw [this] at e2'
          exact absurd e2' (hf0 l e1)

/-- The last event since `w0` is the answer to a query for a region, and not data of its length; the target has the
regions before that one. -/
def LastMiss (H : Bytes → Id) (tino : Nat) (w0 : World) (segs : List Seg) (w : World) : Prop :=
  ∃ a s b l n, segs = a ++ s :: b ∧ (Regular segs → ∀ x ∈ a, Verified H (w.data tino) x) ∧ w.log = w0.log ++ l ++ [.answer s.id n] ∧ n ≠ some s.len

/-- Analysis of runs that fail for want of chunks only. -/
def blameRun (env : Env) (tino : Nat) (w0 : World) (segs : List Seg) (P : Nat → Prop) : Cfg where
  env := env
  tino := tino
  w0 := w0
  segs := segs
  R := Regular segs
  T := fun _ => False
  CI := fun _ w subs => (SubsInv env tino w0 w subs ∧ ∀ o ∈ subs.map (fun s => inoOf s.s), ∀ i, o = some i → P i) ∧ ∀ sub ∈ subs, LocFit w0 sub.s
  CJ := fun _ _ w subs => (SubsInv env tino w0 w subs ∧ ∀ o ∈ subs.map (fun s => inoOf s.s), ∀ i, o = some i → P i) ∧ ∀ sub ∈ subs, LocFit w0 sub.s
  L := fun _ => True
  Bad := LastMiss env.H tino w0 segs
  SOk := fun s => s = .killed

theorem blameRun_ok {env : Env} {tino : Nat} {w0 : World} {segs : List Seg} {P : Nat → Prop} (hlib : env.lib.Conforms) (hz : Sane env) (hs : SegsOk segs) :
    (blameRun env tino w0 segs P).Ok := by
  refine ⟨hlib, hs, fun h => h, fun _ h => h.elim, ?_, ?_, ?_, ?_, ?_, ?_, ?_, ?_, ?_⟩
  · intro done w w' subs h hc
    exact ⟨⟨SubsInv.away h.1.1 (hc.away _), h.1.2⟩, h.2⟩
  · intro done seg w subs h
    exact h
  · intro done seg w subs d evs r mm h _ _ hr hm
    exact ⟨⟨SubsInv.away h.1.1 (Away.wrote hr hm), h.1.2⟩, h.2⟩
  · intro done seg w subs h _
    exact h
  · intro _ _ _ _; trivial
  · intro _ _ _ _ _; trivial
  · intro _ _ _ _ _; trivial
  · intro _ _ _ _ _ _; trivial
  · intro pre post seg rest c t out w hsh _ hci ht hti hout
    have hid := (hs _ _ _ hsh.split).2.2
    have ha := hsh.away
    have hsplit : segs = pre ++ post ++ seg :: rest := hsh.split
    have hver : Regular segs → ∀ x ∈ pre ++ post, Verified env.H (w.data tino) x := hsh.ver
    obtain ⟨lg, hlg, _⟩ := hsh.log
    have hlg : w.log = w0.log ++ lg := hlg
    unfold chainGet
    refine wp_bind (wp_emit ?_)
    have hce := Calm.emit w (.query seg.id)
    have w1 := wp_chainLoop_inv (R := Regular segs) (T := fun _ => False) (done := pre ++ post) (w0 := w0) hlib hz hid c.subs 0 t out _ hti (ha.trans (hce.away _)) (SubsInv.away hci.1.1 (hce.away _)) ht
    have w2 := wp_chainLoop_ino env seg.id c.subs 0 t out { w with log := w.log ++ [.query seg.id] }
    have w3 := wp_chainLoop_fit (R := Regular segs) (T := fun _ => False) (done := pre ++ post) (w0 := w0) hlib hz hid c.subs 0 t out _ hti (ha.trans (hce.away _)) (SubsInv.away hci.1.1 (hce.away _)) ht hci.2
    refine wp_bind (wp_mono (wp_and (wp_and w1 w2) w3) ?_ ?_)
    · intro a w' h
      obtain ⟨r, t', subs', out'⟩ := a
      obtain ⟨⟨h, h'⟩, h''⟩ := h
      obtain ⟨evs, k1, k2⟩ := h.calm
      refine wp_bind (wp_emit (wp_pure ⟨Calm.answered ⟨evs, hce.trans k1, k2⟩,
        fun _ => ⟨⟨SubsInv.away h.subs ((Calm.emit w' (.answer seg.id r)).away _), ?_⟩, h''⟩, trivial, h.tgt, h.len, h.data, fun hne => ⟨pre ++ post, seg, rest, lg ++ [.query seg.id] ++ evs, r, hsplit, ?_, ?_, hne⟩⟩))
      · simp only at h' ⊢
        rw [h']
        exact hci.1.2
      · show Regular segs → ∀ x ∈ pre ++ post, Verified env.H (w'.data tino) x
        rw [k1.data]
        exact hver
      · show w'.log ++ [.answer seg.id r] = _
        rw [k1.log, hlg]
        simp
    · intro s w' h
      obtain ⟨⟨⟨h1, evs, k1, k2⟩, _⟩, h3⟩ := h
      exact ⟨⟨h3, trivial⟩, evs, hce.trans k1, k2⟩

/-- Local stores as they are made can be scanned again. -/
theorem fit_start {env : Env} {w : World} {ipath tpath : Bytes} {stores : List Bytes} (hu : Usable env w ipath tpath stores) {p : Params} {ii n : Nat}
    (hii : w.dir ipath = some ii) (hwf : WellFormed (w.data ii) p.min p.avg p.max n) {arg : Bytes} (harg : arg ∈ stores) {s : Store}
    (h : StoreFrom env w tpath p arg s) : LocFit w s := by
  intro l hs h0
  rw [hs] at h
  obtain ⟨path, index, d, h1, h2, h3, h4, h5, h6⟩ := h
  obtain ⟨ii', mi, av, ma, n', i1, i2, i3, i4, i5⟩ := hu.index
  rw [hii] at i1
  cases i1
  obtain ⟨_, rfl, _, _⟩ := wellFormed_unique i3 hwf
  obtain ⟨⟨i, k1, k2, k3⟩, _⟩ := i5 arg harg path index h1
  rw [h2] at k1
  cases k1
  have := hu.files _ _ h2
  rw [h3, C57_estimate_zero p _ (by have := hwf.mono; omega) (by omega)] at h0
  omega

/-- Runs that can only fail for want of a chunk. -/
theorem run_blame {env : Env} {w : World} {ipath tpath : Bytes} {stores : List Bytes} (hsc : Scene env w ipath tpath stores)
    (hu : Usable env w ipath tpath stores) {segs : List Seg} {ti : Nat} (hd : Describes w ipath segs) (ht : w.dir tpath = some ti)
    (hfit : ∀ s ∈ segs, s.len ≠ 0 ∧ s.len ≤ env.bufMax) (hreg : Regular segs) (hblk : w.kind ti = .blk → total segs ≤ (w.data ti).length)
    (h63 : total segs < 2 ^ 63) :
    wp (csnMain env (ipath :: tpath :: stores))
      (fun r w' => (r = true ∧ ∃ pre post, Shape env.H env.bufMax (Regular segs) ti w segs pre post [] 0 [] w') ∨ (r = false ∧ LastMiss env.H ti w segs w'))
      (fun s _ => s = .killed) w := by
  unfold csnMain
  refine wp_bind (wp_mono (wp_csn hsc) ?_ ?_)
  · intro r w1 h
    obtain ⟨h1, h2⟩ := h
    cases r with
    | none => exact absurd h2 hu.starts
    | some s =>
      simp only at h2 ⊢
      have hb := h2.begun
      have hti : s.tgt.ino = ti := by have := hb.tgt; rw [ht] at this; cases this; rfl
      have hseg := Describes.unique hd hb.idx
      have hso := Describes.segsOk hd
      have hi := hu.files ipath _ h2.idx
      obtain ⟨t0, _, happ⟩ := h2.app
      have hok : (blameRun env ti w segs (LocalIno w tpath stores)).Ok := blameRun_ok hsc.lib hsc.sane hso
      refine wp_sync (G := blameRun env ti w segs (LocalIno w tpath stores)) hok hsc h2 hti hseg
        ⟨⟨by have := subsInv_start hsc h2; rw [hti] at this; exact this, h2.inos⟩, ?_⟩ (fun _ h => h.elim)
        (F := ∃ i, LocalIno w tpath stores i ∧ Risk w i) ?_ ?_ ?_ ?_
      · intro sub hsub
        obtain ⟨k, hk⟩ := List.getElem?_of_mem hsub
        obtain ⟨_, arg, g1, g2⟩ := happ.each k sub hk
        exact fit_start hu h2.idx h2.wf (List.mem_of_getElem? g1) g2
      · intro _ w' subs hci ⟨sub, hsub, l, hl, hf⟩
        exact ⟨l.ino, hci.1.2 (some l.ino) (List.mem_map.2 ⟨sub, hsub, by simp [hl, inoOf]⟩) _ rfl, ((hci.1.1 sub hsub).2 l hl).2 hf⟩
      · intro w' pre post e hs _ _
        exact Or.inl ⟨rfl, pre, post, hs⟩
      · intro w' hf _
        rcases hf with (hf | hf | ⟨x, hf, hf'⟩ | hf | hf) | hf
        · exact absurd hu.clean hf
        · exact Or.inr ⟨rfl, hf⟩
        · have := (hfit x hf).2
          simp only [blameRun] at hf'
          omega
        · simp only [blameRun] at hf
          have := hblk hf.1
          omega
        · simp only [blameRun] at hf
          omega
        · simp only [blameRun] at hf
          omega
      · intro st w' hst _
        rcases hst with (hst | hst | ⟨_, hst | ⟨x, hst, hst'⟩⟩ | hst) | hst
        · exact hst
        · exact hst
        · exact absurd hu.clean hst
        · exact absurd hst' (hfit x hst).1
        · exact absurd hreg hst.2
        · obtain ⟨_, i, ⟨arg, ha, path, index, h3, h4⟩, h5⟩ := hst
          exact absurd ⟨arg, ha, path, index, i, h3, h4, h5⟩ hu.noRisk
  · intro s w1 h
    rcases h.2 with h | h
    · exact h
    · exact absurd h.2 hu.noAbort

end Csn.Proof
