import Verif.Props.Race
import Verif.Props.SyncEx
import Verif.Spec.RaceSource
import Verif.Proof.RaceSim
import Verif.Proof.Run
/-
C82 for the runs of csn in Model/Main: every one of them that ends is one of Model/Race, with the same writes.
-/
namespace Csn.Proof
open Csn Spec Race Props

/-- The source a store was made as. -/
theorem source_of {env : Env} {w : World} {tpath : Bytes} {p : Params} {arg : Bytes} {s : Store} (h : StoreFrom env w tpath p arg s) :
    ∃ src, SourceOf env.H w tpath arg src ∧ (src = .target ↔ arg = tpath) ∧ ∀ k, StoreRel s (src.store k) := by
  cases s with
  | target => exact ⟨.target, h, ⟨fun _ => h, fun _ => rfl⟩, fun _ => trivial⟩
  | http x => exact ⟨.http, h.1, ⟨(nofun), fun e => absurd e h.1.1⟩, fun _ => trivial⟩
  | loc l =>
    obtain ⟨path, index, d, h1, h2, h3, h4, ⟨idx, g1, g2, g3⟩, h6⟩ := h
    have hne : arg ≠ tpath := h1.1
    cases h6 with
    | scan hv hs hx =>
      obtain ⟨idx', e1, e2⟩ := hv
      rw [g1] at e1
      cases e1
      refine ⟨.scanned (idx.entries.map fun e => ⟨e.start, e.len, e.id⟩), ⟨path, index, _, h1, h2, ?_⟩, ⟨(nofun), fun e => absurd e hne⟩, fun k => ?_⟩
      · intro s hs
        obtain ⟨e, he, rfl⟩ := List.mem_map.1 hs
        exact ⟨(g3 e he).1, (g3 e he).2 (e2 e he)⟩
      · refine ⟨idx, idx.entries, g1, ?_, g2, List.Perm.refl _⟩
        simp only
        rw [valid_map e2]
    | sideload ipath ino idx' k1 k2 k3 k4 k5 =>
      rw [g1] at k3
      cases k3
      obtain ⟨n, n1, n2, n3⟩ := k4
      subst k1
      refine ⟨.side (delivered 0 (tableEntries (w.data ino) n)), ⟨path, ipath, h1, ino, _, _, _, n, k2, n1, rfl⟩, ⟨(nofun), fun e => absurd e hne⟩, fun k => ?_⟩
      refine ⟨idx, idx.entries, g1, ?_, g2, List.Perm.refl _⟩
      simp only
      rw [n2]
      rfl

theorem sources_of {env : Env} {w : World} {tpath : Bytes} {p : Params} : ∀ (args : List Bytes) (subs : List (Sub Store)) (j : Nat), subs.length = args.length →
    (∀ (k : Nat) (sub : Sub Store), subs[k]? = some sub → sub.active = true ∧ ∃ arg, args[k]? = some arg ∧ StoreFrom env w tpath p arg sub.s) →
    ∃ srcs : List Source, srcs.length = args.length ∧ (∀ (k : Nat) (src : Source), srcs[k]? = some src → ∃ arg, args[k]? = some arg ∧ SourceOf env.H w tpath arg src) ∧
      (.target ∈ srcs ↔ tpath ∈ args) ∧ SubsRel subs (chainFrom j srcs) := by
  intro args
  induction args with
  | nil =>
    intro subs j hl _
    have := List.length_eq_zero_iff.1 hl
    subst this
    exact ⟨[], rfl, by simp, by simp, .nil⟩
  | cons arg args ih =>
    intro subs j hl he
    cases subs with
    | nil => simp at hl
    | cons sub subs =>
      obtain ⟨ha, arg', e1, e2⟩ := he 0 sub rfl
      simp only [List.getElem?_cons_zero, Option.some.injEq] at e1
      subst e1
      obtain ⟨src, s1, s2, s3⟩ := source_of e2
      obtain ⟨srcs, r1, r2, r3, r4⟩ := ih subs (j + 1) (by simpa using hl) (fun k sub' h => he (k + 1) sub' h)
      refine ⟨src :: srcs, by simp [r1], ?_, ?_, ?_⟩
      · intro k x hx
        cases k with
        | zero => simp only [List.getElem?_cons_zero, Option.some.injEq] at hx; subst hx; exact ⟨arg, rfl, s1⟩
        | succ k => exact r2 k x hx
      · rw [List.mem_cons, List.mem_cons, r3, eq_comm (a := Source.target), s2, eq_comm (a := arg)]
      · exact .cons ⟨ha.symm, fun _ => s3 j⟩ r4

end Csn.Proof

namespace Csn.Props
open Csn Spec Race Proof

/-- C82: A run of csn, however it ends, has not started, and the files are as before; or it has done what a run of Model/Race
does, with some answers of the environment: the stores are those of the command line, the regions those of the index, up to where
the index could not be read any further; the target contains what is left by the writes of that run, and no other file has
changed.  The run succeeds only if that run does, for all regions of the index.  Local stores may be the target under another
name. -/
theorem C82_covers (env : Env) (w w' : World) (ipath tpath : Bytes) (stores : List Bytes) (hst : Stage env w ipath tpath stores) (o : Res Bool)
    (hrun : csnMain env (ipath :: tpath :: stores) w = (o, w')) :
    (o ≠ .ok true ∧ w'.data = w.data) ∨
    ∃ ti all srcs segs ans r log, w.dir tpath = some ti ∧ Describes w ipath all ∧ segs <+: all ∧
      srcs.length = stores.length ∧ (∀ (k : Nat) (src : Source), srcs[k]? = some src → ∃ arg, stores[k]? = some arg ∧ SourceOf env.H w tpath arg src) ∧
      raced env.H env.bufMax srcs segs ans = (r, log) ∧
      w'.data ti = effect log (w.data ti) ∧ (∀ i, i ≠ ti → w'.data i = w.data i) ∧
      (o = .ok true → r = .ok true ∧ segs = all) := by
  let G : Res Bool → World → Prop := fun o w' => (o ≠ .ok true ∧ w'.data = w.data) ∨
    ∃ ti all srcs segs ans r log, w.dir tpath = some ti ∧ Describes w ipath all ∧ segs <+: all ∧
      srcs.length = stores.length ∧ (∀ (k : Nat) (src : Source), srcs[k]? = some src → ∃ arg, stores[k]? = some arg ∧ SourceOf env.H w tpath arg src) ∧
      raced env.H env.bufMax srcs segs ans = (r, log) ∧
      w'.data ti = effect log (w.data ti) ∧ (∀ i, i ≠ ti → w'.data i = w.data i) ∧
      (o = .ok true → r = .ok true ∧ segs = all)
  have key : wp (csnMain env (ipath :: tpath :: stores)) (fun b w' => G (.ok b) w') (fun s w' => G (.stop s) w') w := by
    unfold csnMain
    refine wp_bind (wp_mono (wp_csn_stage hst) (fun r w1 h => ?_) (fun s w1 h => ?_))
    rotate_left
    · obtain ⟨⟨evs0, hc, -⟩, -⟩ := h
      exact Or.inl ⟨(nofun), hc.data⟩
    obtain ⟨⟨evs0, hc, -⟩, h⟩ := h
    cases r with
    | none => exact wp_pure (Or.inl ⟨by simp, hc.data⟩)
    | some s =>
      obtain ⟨-, h2, h3, h4, t0, -, h6⟩ := h
      obtain ⟨srcs, r1, r2, r3, r4⟩ := sources_of stores s.chain.subs 0 h6.len h6.each
      have hmono := h3.mono
      have happ : s.iino ≠ s.tgt.ino := fun e => hst.apart _ h2 (e ▸ h4)
      simp only
      unfold Csn.sync
      have hcb : CbRel s.tgt.ino ⟨true, false, List.replicate 32 0, List.replicate env.bufMax 0, 0, s.tgt, s.chain⟩
          ⟨true, none, List.replicate env.bufMax 0, ⟨[], srcs.contains .target⟩, chainFrom 0 srcs⟩ := by
        refine ⟨rfl, rfl, rfl, ⟨rfl, ?_, fun hq => ?_⟩, r4⟩
        · have : (srcs.contains .target = true) ↔ s.tgt.queryable = true := by
            rw [List.contains_iff_mem, r3, h6.qry]
          exact Bool.eq_iff_iff.2 this.symm
        · exact ⟨(h6.idx hq).1, by rw [(h6.idx hq).2.1]⟩
      have hd : Describes w ipath (delivered 0 (tableEntries (w.data s.iino) s.n)) := ⟨_, _, _, _, _, h2, h3, rfl⟩
      have hG : ∀ (o' : Bool) (o : Res Bool) (w2 w3 : World), (o = .ok true → o' = true) → w3.data = w2.data →
          LoopEnd s.tgt.ino env.H ⟨true, none, List.replicate env.bufMax 0, ⟨[], srcs.contains .target⟩, chainFrom 0 srcs⟩
            (delivered 0 (tableEntries (w.data s.iino) s.n)) w1.data o' w2 → G o w3 := by
        rintro o' o w2 w3 ho hw3 ⟨segs, ans, r, evs, rest, g1, g2, g3, g4⟩
        refine Or.inr ⟨_, _, srcs, segs, ans, r, evs, h4, hd, g3, r1, r2, ?_, ?_, ?_, fun h => g4 (ho h)⟩
        · unfold raced Race.sync
          rw [g1]
        · rw [hw3, g2, hc.data]
          simp [upd]
        · intro i hi
          rw [hw3, g2, hc.data]
          simp [upd, hi]
      refine wp_bind (wp_mono (wp_loop_sim (ti := s.tgt.ino) hst.lib h3.size (by omega) (by omega) (by rw [hc.data]) happ hcb) (fun a w2 h => ?_) (fun st w2 h => hG false _ w2 w2 (nofun) rfl h))
      obtain ⟨ok, c⟩ := a
      cases ok with
      | false => exact wp_pure (hG false _ w2 w2 (by simp) rfl h)
      | true => exact wp_finish (fun w3 evs3 hc3 _ _ => ⟨hG true _ w2 w3 (fun _ => rfl) hc3.data h, fun _ => hG true _ w2 w3 (nofun) hc3.data h⟩)
  have : G o w' := by
    unfold wp at key
    rw [hrun] at key
    cases o with
    | ok b => exact key
    | stop s => exact key
  exact this

/-- C82: What csn has done when it ends, by itself or not, even if local stores are the target under another name (then C28 fails, see
`C28_refuted`): it has written to the target only, region after region, and success means that all were written or found
right; every write is the beginning of a chunk of the region's length that hashes to the region's ID, unless there are local
stores or the target is one. -/
theorem C82_run (env : Env) (w w' : World) (ipath tpath : Bytes) (stores : List Bytes) (hst : Stage env w ipath tpath stores) (all : List Seg)
    (hd : Describes w ipath all) (hreg : Regular all) (ti : Nat) (ht : w.dir tpath = some ti) (o : Res Bool)
    (hrun : csnMain env (ipath :: tpath :: stores) w = (o, w')) :
    ∃ log, w'.data ti = effect log (w.data ti) ∧ (∀ i, i ≠ ti → w'.data i = w.data i) ∧
      OneByOne all log ∧ (o = .ok true → log.filterMap finished = all) ∧
      (∀ s d, .kept s d ∈ log → d.length = s.len ∧ env.H d = s.id) ∧
      ∀ s d ok, .wrote s d ok ∈ log → ∃ c : Bytes, c.length = s.len ∧ d = c.take d.length ∧ (ok = true → d = c) ∧
        (s.len ≠ 0 → env.H c = s.id ∨ ∃ arg ∈ stores, arg = tpath ∨ ∃ path index, LocalArg tpath arg path index) := by
  rcases C82_covers env w w' ipath tpath stores hst o hrun with ⟨h1, h2⟩ | ⟨ti', all', srcs, segs, ans, b', log, h1, h2, h3, h4, h5, h6, h7, h8, h9⟩
  · exact ⟨[], by rw [h2]; rfl, fun i _ => by rw [h2], fun a e b h => by simp at h, fun h => absurd h h1, fun s d h => by simp at h, fun s d ok h => by simp at h⟩
  · rw [ht] at h1
    cases h1
    obtain rfl := Describes.unique h2 hd
    have hreg' : Regular segs := by
      obtain ⟨t, rfl⟩ := h3
      intro a x y b h
      exact hreg a x y (b ++ t) (by rw [h]; simp)
    obtain ⟨-, o1, o2⟩ := C82_order env.H env.bufMax srcs segs ans hreg'
    have hs := C82_writes_partial env.H env.bufMax srcs segs ans hreg'
    rw [h6] at o1 o2 hs
    simp only at o1 o2 hs
    refine ⟨log, h7, h8, fun a e b h s hs => (o2 a e b h s hs).trans h3, fun hb => ?_, ?_, ?_⟩
    · obtain ⟨rfl, rfl⟩ := h9 hb
      exact o1 rfl
    · intro s d hm
      obtain ⟨a, b2, hab⟩ := List.append_of_mem hm
      exact hs a _ b2 hab
    · intro s d ok hm
      obtain ⟨a, b2, hab⟩ := List.append_of_mem hm
      obtain ⟨c, c1, c2, c3, c4⟩ := hs a _ b2 hab
      refine ⟨c, c1, c2, c3, fun hn => ?_⟩
      rcases c4 hn with hc | ⟨k, off, hk⟩
      · exact Or.inl hc
      · refine Or.inr ?_
        have hk' : Ev.trusted k s.id off c ∈ log := by rw [hab]; exact List.mem_append_left _ hk
        have := C82_trusted env.H env.bufMax srcs segs ans hreg' k s.id off c (by rw [h6]; exact hk')
        cases k with
        | none =>
          obtain ⟨j, hj⟩ := List.getElem?_of_mem this
          obtain ⟨arg, a1, a2⟩ := h5 j _ hj
          exact ⟨arg, List.mem_of_getElem? a1, Or.inl a2⟩
        | some k =>
          obtain ⟨es, g | g⟩ := this
          · obtain ⟨arg, a1, path, index, i, a2, _⟩ := h5 k _ g
            exact ⟨arg, List.mem_of_getElem? a1, Or.inr ⟨path, index, a2⟩⟩
          · obtain ⟨arg, a1, path, index, a2, _⟩ := h5 k _ g
            exact ⟨arg, List.mem_of_getElem? a1, Or.inr ⟨path, some index, a2⟩⟩

/-! ### A case: the run of `C28_refuted`, with a store that is the target -/

def aliasWorld : World := syncWorld (exIdx [exC1, exC3]) exC3 [] manySys

theorem aliasIdx_wf : WellFormed (exIdx [exC1, exC3]) 10 20 50 2 :=
  encode_wellFormed ⟨by decide, by decide, by decide, by decide, by decide⟩

theorem aliasStage : Stage syncEnv aliasWorld (str "i") (str "t") [str "a", str "s"] :=
  have h := syncWorld_scene (target := exC3) (side := []) (sys := manySys) aliasIdx_wf [str "s"] (by simp) (by simp)
  ⟨h.lib, h.sane, h.short, h.apart, fun _ => h.scan ⟨str "s", by simp, str "s", none, by decide, by decide, by decide, rfl⟩, by simp⟩

theorem aliasRegular : Regular (delivered 0 (tableEntries (exIdx [exC1, exC3]) 2)) := by
  have e : delivered 0 (tableEntries (exIdx [exC1, exC3]) 2) = [⟨0, 50, syncEnv.H exC1⟩, ⟨50, 20, syncEnv.H exC3⟩] := by decide +kernel
  rw [e]
  intro a x y b h hid
  match a, h with
  | [], h =>
    simp only [List.nil_append, List.cons.injEq] at h
    obtain ⟨h1, h2, -⟩ := h
    subst h1; subst h2
    exact absurd hid (by decide +kernel)
  | [_], h => simp at h
  | _ :: _ :: _, h => simp at h

/-- The run in Model/Race that `C82_covers` speaks of: "a" hands out what has become wrong. -/
example : (exRun ["a", "s"] aliasWorld).1 = .ok true ∧
    raced syncEnv.H syncEnv.bufMax [.scanned [⟨0, 20, syncEnv.H exC3⟩], .scanned [⟨0, 50, syncEnv.H exC1⟩, ⟨50, 10, syncEnv.H exC2⟩]]
      [⟨0, 50, syncEnv.H exC1⟩, ⟨50, 20, syncEnv.H exC3⟩]
      [.read exC3 false, .pick none, .pick (some 0), .read exC1 true, .write true 0, .pick (some 0), .read (exC1.take 20) true, .write true 0] =
    (.ok true, [.trusted (some 1) (syncEnv.H exC1) 0 exC1, .wrote ⟨0, 50, syncEnv.H exC1⟩ exC1 true,
      .trusted (some 0) (syncEnv.H exC3) 0 (exC1.take 20), .wrote ⟨50, 20, syncEnv.H exC3⟩ (exC1.take 20) true]) ∧
    (exRun ["a", "s"] aliasWorld).2.data 3 = effect [.wrote ⟨0, 50, syncEnv.H exC1⟩ exC1 true, .wrote ⟨50, 20, syncEnv.H exC3⟩ (exC1.take 20) true] exC3 := by
  decide +kernel

/-- Killed in the middle of the first write. -/
example : (exRun ["a", "s"] (syncWorld (exIdx [exC1, exC3]) exC3 [] (manySys.take 24 ++ [.some 7]))).1 = .stop .killed ∧
    raced syncEnv.H syncEnv.bufMax [.scanned [⟨0, 20, syncEnv.H exC3⟩], .scanned [⟨0, 50, syncEnv.H exC1⟩, ⟨50, 10, syncEnv.H exC2⟩]]
      [⟨0, 50, syncEnv.H exC1⟩] [.read exC3 false, .pick none, .pick (some 0), .read exC1 true, .cut 8] =
    (.stop .killed, [.trusted (some 1) (syncEnv.H exC1) 0 exC1, .wrote ⟨0, 50, syncEnv.H exC1⟩ (exC1.take 8) false]) ∧
    (exRun ["a", "s"] (syncWorld (exIdx [exC1, exC3]) exC3 [] (manySys.take 24 ++ [.some 7]))).2.data 3 = effect [.wrote ⟨0, 50, syncEnv.H exC1⟩ (exC1.take 8) false] exC3 := by
  decide +kernel

example (o : Res Bool) (w' : World) (h : exRun ["a", "s"] aliasWorld = (o, w')) : ∃ log, w'.data 3 = effect log exC3 ∧ OneByOne (delivered 0 (tableEntries (exIdx [exC1, exC3]) 2)) log :=
  have ⟨log, h1, _, h2, _⟩ := C82_run syncEnv aliasWorld w' (str "i") (str "t") [str "a", str "s"] aliasStage _ (syncWorld_describes aliasIdx_wf)
    aliasRegular 3 rfl o h
  ⟨log, h1, h2⟩

end Csn.Props
