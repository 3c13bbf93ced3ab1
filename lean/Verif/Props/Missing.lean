import Verif.Proof.Missing
import Verif.Props.Net
/-
C76: only chunks that are missing are looked for further along the list of stores, and downloaded.
-/
namespace Csn.Props
open Csn Spec Proof

/-- **C76 (part)**: in a run of csn whose arguments are usable, however it ends, a store is only asked for chunks of the index that
no store before it has.  Missing for the full statement, as for C36: a store with a side-loaded index that describes
something outside its file does not count as having chunks; and no store may have data with the hash, but not the length, that the
index demands. -/
theorem C76_only_missing_partial {env : Env} {w w' : World} {ipath tpath : Bytes} {stores : List Bytes} {segs : List Seg} {ti ii n : Nat} {p : Params} {o : Res Bool}
    (hsc : Scene env w ipath tpath stores) (hu : Usable env w ipath tpath stores) (ht : w.dir tpath = some ti)
    (hii : w.dir ipath = some ii) (hwf : WellFormed (w.data ii) p.min p.avg p.max n) (hd : Describes w ipath segs)
    (hfit : ∀ s ∈ segs, s.len ≠ 0 ∧ s.len ≤ env.bufMax) (heven : ∀ s ∈ segs, ∀ s' ∈ segs, s.id = s'.id → s.len = s'.len)
    (hcl : NoClash env w tpath stores segs) (h63 : total segs < 2 ^ 63) (hrun : csnMain env (ipath :: tpath :: stores) w = (o, w')) :
    ∃ evs, w'.log = w.log ++ evs ∧ ∀ j id, (j, id) ∈ asksOf evs →
      (∃ s ∈ segs, s.id = id) ∧ ∀ s ∈ segs, s.id = id → ∀ k arg, k < j → stores[k]? = some arg → ¬ Source env w tpath p arg s := by
  have h := run_missing hsc hu hd ht hii hwf hfit heven hcl h63
  have : AskedSince env w tpath p stores segs none w' := by
    cases o with
    | ok b => exact wp_ok (Q := fun _ w' => AskedSince env w tpath p stores segs none w') h hrun
    | stop s => exact wp_stopped (S := fun _ w' => AskedSince env w tpath p stores segs none w') h hrun
  obtain ⟨evs, h1, h2, _⟩ := this
  exact ⟨evs, h1, fun j id hj => ⟨h2.known j id hj, h2.miss j id hj⟩⟩

/-- **C76 (part)**: if the target is among the stores, those after it are asked for a chunk only once, however often the index
lists it.  Missing for the full statement: as above. -/
theorem C76_once_partial {env : Env} {w w' : World} {ipath tpath : Bytes} {stores : List Bytes} {segs : List Seg} {ti ii n : Nat} {p : Params} {o : Res Bool}
    (hsc : Scene env w ipath tpath stores) (hu : Usable env w ipath tpath stores) (ht : w.dir tpath = some ti)
    (hii : w.dir ipath = some ii) (hwf : WellFormed (w.data ii) p.min p.avg p.max n) (hd : Describes w ipath segs)
    (hfit : ∀ s ∈ segs, s.len ≠ 0 ∧ s.len ≤ env.bufMax) (heven : ∀ s ∈ segs, ∀ s' ∈ segs, s.id = s'.id → s.len = s'.len)
    (hcl : NoClash env w tpath stores segs) (h63 : total segs < 2 ^ 63) (hrun : csnMain env (ipath :: tpath :: stores) w = (o, w')) :
    ∃ evs, w'.log = w.log ++ evs ∧ ∀ k, stores[k]? = some tpath → ((asksOf evs).filter (fun a => decide (k < a.1))).Nodup := by
  have h := run_missing hsc hu hd ht hii hwf hfit heven hcl h63
  have : AskedSince env w tpath p stores segs none w' := by
    cases o with
    | ok b => exact wp_ok (Q := fun _ w' => AskedSince env w tpath p stores segs none w') h hrun
    | stop s => exact wp_stopped (S := fun _ w' => AskedSince env w tpath p stores segs none w') h hrun
  obtain ⟨evs, h1, h2, _⟩ := this
  exact ⟨evs, h1, h2.once⟩

theorem mem_asksOf {k : Nat} {id : Id} {l : List Event} (h : .ask k id ∈ l) : (k, id) ∈ asksOf l := by
  obtain ⟨a, b, rfl⟩ := List.append_of_mem h
  rw [asksOf_append]
  simp [asksOf]

/-- **C76 (part)**, for the network: every request is for a chunk of the index that no store before the server has.  Missing for the full
statement: as above. -/
theorem C76_downloads_partial {env : Env} {w w' : World} {ipath tpath : Bytes} {stores : List Bytes} {segs : List Seg} {ti ii n : Nat} {p : Params} {o : Res Bool}
    (hsc : Scene env w ipath tpath stores) (hu : Usable env w ipath tpath stores) (ht : w.dir tpath = some ti)
    (hii : w.dir ipath = some ii) (hwf : WellFormed (w.data ii) p.min p.avg p.max n) (hd : Describes w ipath segs)
    (hfit : ∀ s ∈ segs, s.len ≠ 0 ∧ s.len ≤ env.bufMax) (heven : ∀ s ∈ segs, ∀ s' ∈ segs, s.id = s'.id → s.len = s'.len)
    (hcl : NoClash env w tpath stores segs) (h63 : total segs < 2 ^ 63) (hrun : csnMain env (ipath :: tpath :: stores) w = (o, w')) :
    ∃ evs, w'.log = w.log ++ evs ∧ ∀ url, .http url ∈ evs → ∃ j, ∃ s ∈ segs, StoreUrl env.getenv w tpath stores j s.id url ∧
      ∀ k arg, k < j → stores[k]? = some arg → ¬ Source env w tpath p arg s := by
  obtain ⟨evs, h1, h2⟩ := C76_only_missing_partial hsc hu ht hii hwf hd hfit heven hcl h63 hrun
  have e : appMain env false (str "csn") (ipath :: tpath :: stores) w = (o, w') := by
    rw [← hrun]; unfold appMain; rw [if_pos (by decide)]
  obtain ⟨evs', g1, g2⟩ := C64_on_schedule (.csn ipath tpath stores (by decide)) e
  rw [h1] at g1
  have := List.append_cancel_left g1
  subst this
  refine ⟨evs, h1, fun url hu' => ?_⟩
  obtain ⟨a, b, hab⟩ := List.append_of_mem hu'
  obtain ⟨a1, k, id, a2, url', k1, _, k3, k4⟩ := g2 a _ b hab rfl
  have hurl : url = url' := by
    have : Event.http url ∈ (a2 ++ [Event.http url]).filter isNet := by simp [isNet]
    have := k4.subset this
    have : (∃ x, x < 10) ∧ url = url' := by simpa [retrySchedule] using this
    exact this.2
  subst hurl
  obtain ⟨⟨s, s1, s2⟩, s3⟩ := h2 k id (mem_asksOf (by rw [hab, k1]; simp))
  subst s2
  exact ⟨k, s, s1, k3, s3 s s1 rfl⟩

/-! A case: the target itself, a local store and a server, for an index that lists a chunk twice. -/

theorem thriceScene : Scene syncEnv mixWorld (str "i") (str "t") [str "t", str "s", str "http://h"] := by
  refine ⟨mixScene.lib, mixScene.sane, mixScene.short, mixScene.apart, ?_, fun _ => mixScene.scan ⟨str "s", by simp, str "s", none, mix_local⟩, by decide⟩
  intro arg ha path index hl i hi
  rcases List.mem_cons.1 ha with rfl | ha
  · exact absurd rfl hl.1
  · exact mixScene.own arg ha path index hl i hi

theorem thriceUsable : Usable syncEnv mixWorld (str "i") (str "t") [str "t", str "s", str "http://h"] where
  clean := mixUsable.clean
  mem := mixUsable.mem
  files := mixUsable.files
  given := by simp
  kcapi := mixUsable.kcapi
  target := mixUsable.target
  index := by
    obtain ⟨ii, mi, av, ma, n, h1, h2, h3, h4, h5⟩ := mixUsable.index
    refine ⟨ii, mi, av, ma, n, h1, h2, h3, fun _ => ?_, fun arg ha => ?_⟩
    · have e : 2 = ii := by cases h1; rfl
      rw [← e] at h3
      rw [(wellFormed_unique h3 mixIdx_wf).2.2.2]
      decide
    rcases List.mem_cons.1 ha with rfl | ha
    · exact fun path index hl => absurd rfl hl.1
    · exact h5 arg ha
  urls := by
    intro arg ha hh
    rcases List.mem_cons.1 ha with rfl | ha
    · exact absurd rfl hh.1
    · exact mixUsable.urls arg ha hh

theorem mix_noClash {stores : List Bytes} : NoClash syncEnv mixWorld (str "t") stores mixSegs := by
  intro s hs d _ hd
  simp only [mixSegs, List.mem_cons, List.not_mem_nil, or_false] at hs
  rcases hs with rfl | rfl | rfl
  · rw [mark_eq.1 hd]; decide +kernel
  · rw [mark_eq.2 hd]; decide
  · rw [mark_eq.1 hd]; decide +kernel

def thriceRun : Res Bool × World := csnMain syncEnv [str "i", str "t", str "t", str "s", str "http://h"] mixWorld

attribute [local irreducible] csnMain in
example : ∃ evs, thriceRun.2.log = mixWorld.log ++ evs ∧ ∀ url, .http url ∈ evs → ∃ j, ∃ s ∈ mixSegs, StoreUrl syncEnv.getenv mixWorld (str "t") [str "t", str "s", str "http://h"] j s.id url ∧
    ∀ k arg, k < j → [str "t", str "s", str "http://h"][k]? = some arg → ¬ Source syncEnv mixWorld (str "t") ⟨10, 20, 50⟩ arg s :=
  C76_downloads_partial thriceScene thriceUsable rfl (ii := 2) rfl mixIdx_wf mix_describes (by decide) (by decide +kernel) mix_noClash (by decide)
    (show csnMain _ _ _ = (thriceRun.1, thriceRun.2) from rfl)

/-- The store "s" has the first chunk. -/
example : Source syncEnv mixWorld (str "t") ⟨10, 20, 50⟩ (str "s") ⟨0, 50, syncEnv.H exC1⟩ :=
  .scan (str "s") none 1 mix_local (by intro _ _ e; cases e) rfl ⟨15, [exC1, exC2], exC1, by decide, mix_chunks, by simp, rfl⟩

/-- What this run asks: "s" for the first chunk once and for the other one, the server only for the latter. -/
example : thriceRun.1 = .ok true ∧ asksOf thriceRun.2.log =
    [(0, syncEnv.H exC1), (1, syncEnv.H exC1), (0, syncEnv.H exC3), (1, syncEnv.H exC3), (2, syncEnv.H exC3), (0, syncEnv.H exC1)] := by
  constructor <;> decide +kernel

/-- Without the target among the stores the second chunk with this ID is looked for again. -/
example : ¬ ((asksOf (csnMain syncEnv [str "i", str "t", str "s", str "http://h"] mixWorld).2.log).filter (fun a => decide (0 ≤ a.1))).Nodup := by
  decide +kernel

/-! A store whose index also describes something beyond the end of the store's file. -/

def beyondCar : Bytes := exIdx [exC1, exC3]

def beyondIdx : Bytes := exIdx [exC3, exC1]

theorem beyondCar_wf : WellFormed beyondCar 10 20 50 2 := encode_wellFormed ⟨by decide, by decide, by decide, by decide, by decide⟩

theorem beyondIdx_wf : WellFormed beyondIdx 10 20 50 2 := encode_wellFormed ⟨by decide, by decide, by decide, by decide, by decide⟩

def beyondWorld : World := { syncWorld beyondIdx [] beyondCar manySys with net := [serveC3, serveC3, serveC3] }

def beyondSegs : List Seg := [⟨0, 20, syncEnv.H exC3⟩, ⟨20, 50, syncEnv.H exC1⟩]

theorem beyondScene : Scene syncEnv beyondWorld (str "i") (str "t") [str "s:b", str "http://h"] := by
  have h0 : Scene syncEnv (syncWorld beyondIdx [] beyondCar manySys) (str "i") (str "t") [str "s:b"] := syncWorld_scene beyondIdx_wf _ (by simp) (by simp)
  refine ⟨h0.lib, h0.sane, ?_, h0.apart, ?_, fun _ => h0.scan ⟨str "s:b", by simp, str "s", some (str "b"), side_local⟩, by decide⟩
  · intro f hf url x hx
    simp only [beyondWorld, List.mem_cons, List.not_mem_nil, or_false, or_self] at hf
    subst hf
    exact ((serve_polite url).frags x hx).2
  · intro arg ha path index hl i hi
    simp only [List.mem_cons, List.not_mem_nil, or_false] at ha
    rcases ha with rfl | rfl
    · exact h0.own _ (by simp) path index hl i hi
    · exact absurd (by decide) hl.2.1

theorem beyondUsable : Usable syncEnv beyondWorld (str "i") (str "t") [str "s:b", str "http://h"] where
  clean := show Clean manySys from ⟨by decide +kernel, by decide +kernel⟩
  mem := List.not_mem_nil
  files := by
    intro path i h
    have e1 : exFile.length < 2 ^ 56 := by decide +kernel
    have e2 : beyondIdx.length < 2 ^ 56 := by decide +kernel
    have e3 : beyondCar.length < 2 ^ 56 := by decide +kernel
    simp only [beyondWorld, syncWorld] at h ⊢
    split
    · exact e1
    · split
      · exact e2
      · split
        · exact Nat.two_pow_pos 56
        · split
          · exact e3
          · exact Nat.two_pow_pos 56
  given := by simp
  kcapi := by decide +kernel
  target := ⟨3, rfl⟩
  index := by
    refine ⟨2, 10, 20, 50, 2, rfl, by simp [beyondWorld, syncWorld], beyondIdx_wf, by decide, ?_⟩
    intro arg ha path idx hl
    simp only [List.mem_cons, List.not_mem_nil, or_false] at ha
    rcases ha with rfl | rfl
    · obtain ⟨rfl, rfl⟩ := localArg_eq hl side_local
      refine ⟨⟨1, rfl, by simp [beyondWorld, syncWorld], ?_⟩, ?_⟩
      · show 10 * 20 ≤ 12 * exFile.length
        decide +kernel
      · intro ip i mi av ma n e hi hw
        cases e
        have e : beyondWorld.dir (str "b") = some 4 := rfl
        rw [e] at hi
        cases hi
        obtain ⟨_, _, _, rfl⟩ := wellFormed_unique hw beyondCar_wf
        refine ⟨by decide, ?_⟩
        show ∀ s ∈ delivered 0 (tableEntries beyondCar 2), s.len ≠ 0
        decide +kernel
    · exact absurd (by decide) hl.2.1
  urls := by
    intro arg ha hh
    simp only [List.mem_cons, List.not_mem_nil, or_false] at ha
    rcases ha with rfl | rfl
    · exact absurd hh.2 (by decide)
    · exact ⟨by decide, str "http://h", none, none, ⟨rfl, by decide⟩, .empty⟩

theorem beyond_describes : Describes beyondWorld (str "i") beyondSegs := by
  refine ⟨2, 10, 20, 50, 2, rfl, beyondIdx_wf, ?_⟩
  show beyondSegs = delivered 0 (tableEntries beyondIdx 2)
  decide +kernel

def beyondRun : Res Bool × World := csnMain syncEnv [str "i", str "t", str "s:b", str "http://h"] beyondWorld

theorem beyondRun_ok : beyondRun.1 = .ok false ∧ (1, syncEnv.H exC1) ∈ asksOf beyondRun.2.log := by
  constructor <;> decide +kernel

attribute [local irreducible] csnMain in
/-- **C76 does not hold in full**: when an entry of a side-loaded index lies beyond the end of the store's file and this entry is
asked for, the store is given up.  A store after it is then asked for a chunk - and the run fails - though the first store's file has this
chunk where its index says and also where scanning would find it.  No system call fails. -/
theorem C76_refuted : ∃ env w w' ipath tpath stores segs p o x i j arg path ip xs, Scene env w ipath tpath stores ∧ Usable env w ipath tpath stores ∧ Describes w ipath segs ∧
    csnMain env (ipath :: tpath :: stores) w = (o, w') ∧ o = .ok false ∧ stores[0]? = some arg ∧ LocalArg tpath arg path (some ip) ∧ w.dir path = some i ∧ Sidecar w p ip xs ∧
    x ∈ xs ∧ Matches env.H (w.data i) x ∧ Found env p (w.data i) x.id ∧ 0 < j ∧ (j, x.id) ∈ asksOf w'.log ∧ w.log = [] :=
  ⟨syncEnv, beyondWorld, beyondRun.2, str "i", str "t", [str "s:b", str "http://h"], beyondSegs, ⟨10, 20, 50⟩, beyondRun.1, ⟨0, 50, syncEnv.H exC1⟩, 1, 1, str "s:b", str "s", str "b",
    delivered 0 (tableEntries beyondCar 2), beyondScene, beyondUsable, beyond_describes, rfl, beyondRun_ok.1, rfl, side_local, rfl,
    ⟨4, 2, rfl, by simp [beyondWorld, syncWorld], beyondCar_wf, rfl⟩, by decide +kernel,
    ⟨show (slice exFile 0 50).length = 50 by decide +kernel, rfl⟩, ⟨15, [exC1, exC2], exC1, by decide, mix_chunks, by simp, rfl⟩, by decide, beyondRun_ok.2, rfl⟩

/-- For the same reason `C36_available_partial` needs its condition about side-loaded indices: here one chunk is in the file of a local store, where its index says, and the other one on a
server, and the run fails. -/
theorem C36_available_refuted : ∃ env w w' ipath tpath stores segs p i path ip xs x y key frag B, Scene env w ipath tpath stores ∧ Usable env w ipath tpath stores ∧ Describes w ipath segs ∧
    segs.map (fun s => (s.len, s.id)) = [(y.len, y.id), (x.len, x.id)] ∧ stores.length = 2 ∧
    LocalArg tpath (stores.getD 0 []) path (some ip) ∧ w.dir path = some i ∧ Sidecar w p ip xs ∧ x ∈ xs ∧ Matches env.H (w.data i) x ∧ Found env p (w.data i) x.id ∧
    HttpArg tpath (stores.getD 1 []) ∧ BaseOf (stores.getD 1 []) (stores.getD 1 []) frag ∧ ParamsKey (SpecKey env.getenv w) (frag.getD []) key ∧
    Answers B w.net (stores.getD 1 []) key.isSome ∧ Hosts env w.net (stores.getD 1 []) key y ∧
    csnMain env (ipath :: tpath :: stores) w = (.ok false, w') := by
  refine ⟨syncEnv, beyondWorld, beyondRun.2, str "i", str "t", [str "s:b", str "http://h"], beyondSegs, ⟨10, 20, 50⟩, 1, str "s", str "b", delivered 0 (tableEntries beyondCar 2), ⟨0, 50, syncEnv.H exC1⟩,
    ⟨0, 20, syncEnv.H exC3⟩, none, none, 24, beyondScene, beyondUsable, beyond_describes, rfl, rfl, side_local, rfl,
    ⟨4, 2, rfl, by simp [beyondWorld, syncWorld], beyondCar_wf, rfl⟩, by decide +kernel,
    ⟨show (slice exFile 0 50).length = 50 by decide +kernel, rfl⟩, ⟨15, [exC1, exC2], exC1, by decide, mix_chunks, by simp, rfl⟩,
    ⟨by decide, by decide⟩, ⟨str "http://h", ⟨rfl, by decide⟩, Or.inr ⟨rfl, fun b h => ?_⟩⟩, .empty, ?_, ?_, pair_eq beyondRun_ok.1⟩
  · have := congrArg List.getLast? h
    simp only [List.getLast?_append, List.getLast?_singleton, Option.some_or] at this
    exact absurd this (by decide)
  · refine ⟨fun g hg id _ => Or.inr ?_, fun id _ a b c e hb => ?_, by decide⟩
    · simp only [beyondWorld, List.mem_cons, List.not_mem_nil, or_false, or_self] at hg
      subst hg
      exact serve_polite _
    · have := congrArg List.length e
      simp [beyondWorld] at this
      omega
  · obtain ⟨c, f, I, h1, h2, h3, h4, h5⟩ := mix_hosts
    refine ⟨c, f, I, h1, h2, h3, h4, fun g hg => h5 g ?_⟩
    simp only [beyondWorld, List.mem_cons, List.not_mem_nil, or_false, or_self] at hg
    subst hg
    simp [mixWorld]

end Csn.Props
