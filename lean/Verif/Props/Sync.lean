import Verif.Proof.RunOk
/-
C27-C30, C34, C37, C58: what every run of csn does to the target.
-/
namespace Csn.Props
open Csn Spec Proof

/-! ### From the analysis of runs to outcomes -/

theorem Untouched.shape {env : Env} {w w' : World} {segs : List Seg} {ti : Nat} {R : Prop} (h : Untouched w w') :
    Shape env.H env.bufMax R ti w segs [] [] segs 0 [] w' := by
  obtain ⟨evs, hc, he⟩ := h
  obtain ⟨e1, e2⟩ := storeEv_none evs he
  refine ⟨by simp, Nat.zero_le _, hc.away _, by simp, by simp, by simp, by simp [total_nil], by simp [total_nil], by rw [hc.data]; exact Nat.le_refl _, by simp,
    by simp, by simp [slice], fun i _ => by rw [hc.data], evs, hc.log, fun e h => Or.inr (Or.inr (Or.inr (Or.inr (Or.inr (Or.inr (he e h)))))), ?_, ?_, ?_⟩
  · rw [e1]; simp [Contig]
  · rw [e2]; simp [runs]
  · rw [e1]; simp

/-- What is known about a run, whatever its outcome. -/
theorem run_cases {env : Env} {w w' : World} {ipath tpath : Bytes} {stores : List Bytes} {o : Res Bool} (hsc : Scene env w ipath tpath stores)
    (h : csnMain env (ipath :: tpath :: stores) w = (o, w')) :
    (o ≠ .ok true ∧ Untouched w w' ∧ (o = .ok false → StartFails env w ipath tpath stores) ∧
      (∀ s, o = .stop s → s = .killed ∨ s = .abort ∧ StartAborts w ipath tpath stores)) ∨
    ∃ ti segs, w.dir tpath = some ti ∧ Describes w ipath segs ∧ (∃ s w1, Ready env w ipath tpath stores s w1) ∧
      (∃ pre post rest m d, Shape env.H env.bufMax (Regular segs) ti w segs pre post rest m d w' ∧ (o = .ok true → rest = [] ∧ m = 0 ∧ d = [])) ∧
      (o = .stop .ub → ¬ Regular segs ∨ ∃ arg ∈ stores, ∃ path index i j, LocalArg tpath arg path (some index) ∧ w.dir path = some i ∧
        w.dir index = some j ∧ WrongAbout env.H (w.data j) (w.data i) ∧ Risk w i) := by
  have key := run_any hsc
  cases o with
  | ok r =>
    rcases wp_ok key h with ⟨h1, h2, h3⟩ | ⟨ti, segs, hb, hr, pre, post, rest, m, d, h4, h5⟩
    · exact Or.inl ⟨by simp [h1], h3, fun _ => h2, by simp⟩
    · exact Or.inr ⟨ti, segs, hb.tgt, hb.idx, hr, ⟨pre, post, rest, m, d, h4, fun e => h5 (by simpa using e)⟩, by simp⟩
  | stop s =>
    rcases wp_stopped key h with ⟨h1, h2⟩ | ⟨ti, segs, hb, hr, ⟨pre, post, rest, m, d, h4⟩, h5⟩
    · refine Or.inl ⟨by simp, h2, by simp, fun s' e => ?_⟩
      cases e
      exact h1
    · exact Or.inr ⟨ti, segs, hb.tgt, hb.idx, hr, ⟨pre, post, rest, m, d, h4, by simp⟩, fun e => h5 (by simpa using e)⟩

theorem run_shape {env : Env} {w w' : World} {ipath tpath : Bytes} {stores : List Bytes} {o : Res Bool} (hsc : Scene env w ipath tpath stores)
    (h : csnMain env (ipath :: tpath :: stores) w = (o, w')) {segs : List Seg} (hd : Describes w ipath segs) {ti : Nat} (ht : w.dir tpath = some ti) :
    ∃ pre post rest m d, Shape env.H env.bufMax (Regular segs) ti w segs pre post rest m d w' ∧ (o = .ok true → rest = [] ∧ m = 0 ∧ d = []) := by
  rcases run_cases hsc h with ⟨h1, h2, _⟩ | ⟨ti', segs', h1, h2, _, h3, _⟩
  · exact ⟨_, _, _, _, _, Untouched.shape h2, fun e => absurd e h1⟩
  · rw [ht] at h1
    cases h1
    rw [Describes.unique hd h2]
    exact h3

/-! ### C27 -/

/-- Neighbouring entries with the same ID have the same length. -/
def Uniform (es : List (Nat × Nat × Bytes)) : Prop :=
  ∀ a x y b, es = a ++ x :: y :: b → x.2.2 = y.2.2 → x.2.1 = y.2.1

theorem regular_of_uniform {es : List (Nat × Nat × Bytes)} (h : Uniform es) : Regular (es.map (fun x => ⟨x.1, x.2.1, x.2.2⟩)) := by
  intro a x y b e
  obtain ⟨a', r1, e1, e2, e3⟩ := List.map_eq_append_iff.1 e
  obtain ⟨x', r2, e4, e5, e6⟩ := List.map_eq_cons_iff.1 e3
  obtain ⟨y', r3, e7, e8, e9⟩ := List.map_eq_cons_iff.1 e6
  subst e5 e8
  exact h a' x' y' r3 (by rw [e1, e4, e7])

/-- **C27** (partial): after a successful run every region described by the index has the hash the index demands - for
every previous content of the target, every behaviour of the servers and every schedule of the system calls.  Missing
from the full statement, which is false (`C27_refuted`): empty regions, indices with neighbouring entries of the same ID
and different lengths, indices whose end offsets descend or leave gaps of 4 GiB, and stores that are the target under
another name (`Scene.own`). -/
theorem C27_integrity_partial (env : Env) (w w' : World) (ipath tpath : Bytes) (stores : List Bytes) (hsc : Scene env w ipath tpath stores)
    (hrun : csnMain env (ipath :: tpath :: stores) w = (.ok true, w')) :
    ∃ ti ii mi av ma n, w.dir tpath = some ti ∧ w.dir ipath = some ii ∧ WellFormed (w.data ii) mi av ma n ∧
      (Ascending 0 (tableEntries (w.data ii) n) → Uniform (consecutive 0 (tableEntries (w.data ii) n)) →
        ∀ off len id, (off, len, id) ∈ consecutive 0 (tableEntries (w.data ii) n) → len ≠ 0 →
          (slice (w'.data ti) off len).length = len ∧ env.H (slice (w'.data ti) off len) = id) := by
  rcases run_cases hsc hrun with ⟨h1, _⟩ | ⟨ti, segs, h1, h2, _, ⟨pre, post, rest, m, d, hs, h3⟩, _⟩
  · exact absurd rfl h1
  · obtain ⟨ii, mi, av, ma, n, g1, g2, g3⟩ := h2
    refine ⟨ti, ii, mi, av, ma, n, h1, g1, g2, fun hasc hu off len id hm hne => ?_⟩
    obtain ⟨rfl, rfl, rfl⟩ := h3 rfl
    rw [delivered_ascending 0 _ hasc (tableEntries_lt _ _)] at g3
    have hreg : Regular segs := by rw [g3]; exact regular_of_uniform hu
    have hmem : (⟨off, len, id⟩ : Seg) ∈ pre ++ post := by
      have := hs.split
      rw [List.append_nil] at this
      rw [← this, g3]
      exact List.mem_map.2 ⟨(off, len, id), hm, rfl⟩
    exact hs.ver hreg _ hmem hne

/-! ### C28 -/

theorem placed_uniform {H : Bytes → Id} : ∀ (cs : List Bytes) (o : Nat), (∀ c ∈ cs, ∀ d ∈ cs, H c = H d → c = d) →
    Uniform (placed o (cs.map (fun c => (c.length, H c))))
  | [], o, _ => by intro a x y b e; simp [placed] at e
  | [c], o, _ => by
    intro a x y b e
    have := congrArg List.length e
    simp [placed] at this
    omega
  | c :: c' :: cs, o, h => by
    intro a x y b e
    cases a with
    | nil =>
      simp only [List.map_cons, placed, List.nil_append, List.cons.injEq] at e
      obtain ⟨e1, e2, _⟩ := e
      subst e1 e2
      intro hh
      simp only at hh ⊢
      rw [h c (by simp) c' (by simp) hh]
    | cons z a =>
      rw [List.map_cons, placed, List.cons_append, List.cons.injEq] at e
      exact placed_uniform (c' :: cs) _ (fun p hp q hq => h p (by simp [hp]) q (by simp [hq])) a x y b e.2

theorem flatten_slices {f : Bytes} {H : Bytes → Id} {P : Bytes → Prop} (hP : ∀ c d, P c → d.length = c.length → H d = H c → d = c) : ∀ (cs : List Bytes) (o : Nat),
    (∀ c ∈ cs, P c) →
    (∀ off len id, (off, len, id) ∈ placed o (cs.map (fun c => (c.length, H c))) → len ≠ 0 →
      (slice f off len).length = len ∧ H (slice f off len) = id) → slice f o cs.flatten.length = cs.flatten
  | [], o, _, _ => by simp [slice]
  | c :: cs, o, hi, h => by
    have hc : slice f o c.length = c := by
      by_cases h0 : c.length = 0
      · rw [List.length_eq_zero_iff.1 h0]; simp [slice]
      · obtain ⟨h1, h2⟩ := h o c.length (H c) (by simp [placed]) h0
        exact hP c _ (hi c (by simp)) h1 h2
    have ih := flatten_slices hP cs (o + c.length) (fun c hc => hi c (by simp [hc])) (fun off len id hm => h off len id (by simp [placed, hm]))
    simp only [List.flatten_cons, List.length_append]
    have : slice f o (c.length + cs.flatten.length) = slice f o c.length ++ slice f (o + c.length) cs.flatten.length := by
      unfold slice
      rw [List.take_add, List.drop_drop]
    rw [this, hc, ih]

/-- **C28** (partial): if the index describes the image consisting of the chunks `cs` and no other data of the length of
one of the chunks has the ID of one of them, the target starts with the image after a successful run.  Missing: stores
that are the target under another name (`Scene.own`). -/
theorem C28_image_partial (env : Env) (w w' : World) (ipath tpath : Bytes) (stores : List Bytes) (hsc : Scene env w ipath tpath stores)
    (mi av ma : Nat) (cs : List Bytes) (ii : Nat) (hi : w.dir ipath = some ii) (henc : w.data ii = encode mi av ma (cs.map (fun c => (c.length, env.H c))))
    (hok : Encodable mi av ma (cs.map (fun c => (c.length, env.H c))))
    (hinj : ∀ c ∈ cs, ∀ d, (∃ c' ∈ cs, d.length = c'.length) → env.H d = env.H c → d = c)
    (hrun : csnMain env (ipath :: tpath :: stores) w = (.ok true, w')) :
    ∃ ti, w.dir tpath = some ti ∧ cs.flatten <+: w'.data ti := by
  obtain ⟨ti, ii', mi', av', ma', n, h1, h2, h3, h4⟩ := C27_integrity_partial env w w' ipath tpath stores hsc hrun
  rw [hi] at h2
  cases h2
  rw [henc] at h3 h4
  obtain ⟨rfl, rfl, rfl, rfl⟩ := wellFormed_unique h3 (encode_wellFormed hok)
  rw [encode_entries hok, consecutive_ends] at h4
  refine ⟨ti, h1, ?_⟩
  have := flatten_slices (f := w'.data ti) (H := env.H) (P := fun c => c ∈ cs) (fun c d hc hl he => hinj c hc d ⟨c, hc, hl⟩ he) cs 0 (fun c hc => hc)
    (h4 (ascending_ends 0 _ (fun c hc => (hok.lens c hc).2)) (placed_uniform cs 0 (fun c hc d hd he => hinj d hd c ⟨c, hc, rfl⟩ he)))
  rw [← this]
  exact List.take_prefix _ _

/-! ### C29 -/

/-- **C29**: whatever the outcome of a run - success, failure, or being stopped at any system call - no file but the target
is modified, no file is created or removed, and the target keeps its length or grows; behind the last of the index' end
offsets its bytes stay as they were. -/
theorem C29_frame (env : Env) (w w' : World) (ipath tpath : Bytes) (stores : List Bytes) (hsc : Scene env w ipath tpath stores) (o : Res Bool)
    (hrun : csnMain env (ipath :: tpath :: stores) w = (o, w')) :
    w'.dir = w.dir ∧ w'.kind = w.kind ∧ (∀ i, w.dir tpath ≠ some i → w'.data i = w.data i) ∧
    ∀ ti, w.dir tpath = some ti → (w.data ti).length ≤ (w'.data ti).length ∧
      ∀ pos, (∀ ii mi av ma n, w.dir ipath = some ii → WellFormed (w.data ii) mi av ma n → ∀ e ∈ tableEntries (w.data ii) n, e.1 ≤ pos) →
        (w'.data ti)[pos]? = (w.data ti)[pos]? := by
  rcases run_cases hsc hrun with ⟨_, ⟨evs, hc, _⟩, _⟩ | ⟨ti, segs, h1, h2, _, ⟨pre, post, rest, m, d, hs, _⟩, _⟩
  · exact ⟨hc.dir, hc.kind, fun i _ => by rw [hc.data], fun ti _ => ⟨by rw [hc.data]; exact Nat.le_refl _, fun pos _ => by rw [hc.data]⟩⟩
  · refine ⟨hs.away.dir, hs.away.kind, fun i hi => hs.away.data i (fun e => hi (by rw [h1, e])), fun ti' ht => ?_⟩
    rw [h1] at ht
    cases ht
    refine ⟨hs.grow, fun pos hpos => hs.frame pos (Or.inr ?_)⟩
    have hso := Describes.segsOk h2
    obtain ⟨ii, mi, av, ma, n, g1, g2, g3⟩ := h2
    have he := hpos ii mi av ma n g1 g2
    have hsm := hs.small
    -- the end of a region is a table entry
    have hend : ∀ (done : List Seg) seg rest', segs = done ++ seg :: rest' → total done + seg.len < 2 ^ 64 → total done + seg.len ≤ pos := by
      intro done seg rest' e hl
      rw [g3] at e
      obtain ⟨_, _, _, x, hx, _, hx'⟩ := delivered_seg (tableEntries_ok _ n g2.size) (by omega) e
      have := he x hx
      rw [hx'] at this
      omega
    by_cases hd0 : d = []
    · subst hd0
      simp only [List.length_nil, Nat.add_zero]
      rcases List.eq_nil_or_concat (pre ++ post) with hn | ⟨a, x, hn⟩
      · rw [hn]; simp [total_nil]
      · have hsp := hs.split
        rw [hn, List.concat_eq_append, List.append_assoc, List.singleton_append] at hsp
        have ht : total (pre ++ post) = total a + x.len := by rw [hn, List.concat_eq_append, total_append, total_cons, total_nil]; omega
        have := hend a x rest hsp (by omega)
        omega
    · obtain ⟨_, seg, rest', c, r1, r2, _, r3, _⟩ := hs.part hd0
      have hsp := hs.split
      rw [r1] at hsp
      have hl := (hso _ _ _ hsp).2.1
      have := hend _ seg rest' hsp (by omega)
      omega

/-! ### C30 -/

/-- **C30** (partial): at whatever point a run ends or is stopped, the target consists of verified regions for the first
entries, then - for the next one - a proper prefix of verified data, then what was there before.  Missing, since false
(`C30_refuted`): nothing is known about indices with neighbouring entries of the same ID and different lengths, and about
empty regions. -/
theorem C30_crash_consistency_partial (env : Env) (w w' : World) (ipath tpath : Bytes) (stores : List Bytes) (hsc : Scene env w ipath tpath stores) (o : Res Bool)
    (hrun : csnMain env (ipath :: tpath :: stores) w = (o, w')) (segs : List Seg) (hd : Describes w ipath segs) (hreg : Regular segs)
    (ti : Nat) (ht : w.dir tpath = some ti) :
    ∃ done rest d, segs = done ++ rest ∧ (∀ s ∈ done, Verified env.H (w'.data ti) s) ∧
      (d ≠ [] → ∃ seg c, rest.head? = some seg ∧ c.length = seg.len ∧ env.H c = seg.id ∧ d <+: c ∧ d.length < c.length) ∧
      slice (w'.data ti) (total done) d.length = d ∧
      (∀ pos, total done + d.length ≤ pos → (w'.data ti)[pos]? = (w.data ti)[pos]?) ∧ (o = .ok true → rest = [] ∧ d = []) := by
  obtain ⟨pre, post, rest, m, d, hs, h3⟩ := run_shape hsc hrun hd ht
  refine ⟨pre ++ post, rest, d, hs.split, hs.ver hreg, ?_, hs.now, fun pos hp => hs.frame pos (Or.inr hp), fun e => ⟨(h3 e).1, (h3 e).2.2⟩⟩
  intro hne
  obtain ⟨_, seg, rest', c, r1, r2, r3, r4, r5⟩ := hs.part hne
  exact ⟨seg, c, by rw [r1]; rfl, r2, r3 hreg, by rw [r5]; exact List.take_prefix _ _, by omega⟩

/-! ### C34 -/

/-- **C34**: a successful run has skipped a first part of the entries; the rest it has written, without gaps and in order,
and for it the store chain was queried once per maximal run of neighbouring entries with the same ID. -/
theorem C34_repetitions_fetched_once (env : Env) (w w' : World) (ipath tpath : Bytes) (stores : List Bytes) (hsc : Scene env w ipath tpath stores)
    (hrun : csnMain env (ipath :: tpath :: stores) w = (.ok true, w')) :
    ∃ segs pre post evs, Describes w ipath segs ∧ segs = pre ++ post ∧ w'.log = w.log ++ evs ∧
      Contig (total pre) (writesOf evs) (total segs) ∧ queriesOf evs = runs (post.map (·.id)) := by
  rcases run_cases hsc hrun with ⟨h1, _⟩ | ⟨ti, segs, h1, h2, _, ⟨pre, post, rest, m, d, hs, h3⟩, _⟩
  · exact absurd rfl h1
  · obtain ⟨rfl, rfl, rfl⟩ := h3 rfl
    obtain ⟨evs, l1, _, l3, l4, _⟩ := hs.log
    have e := hs.split
    rw [List.append_nil] at e
    refine ⟨segs, pre, post, evs, h2, e, l1, ?_, ?_⟩
    · rw [e]; simpa using l3
    · simpa using l4

/-! ### C37 -/

/-- Circumstances under which csn must refuse to start. -/
def Unusable (env : Env) (w : World) (ipath tpath : Bytes) (stores : List Bytes) : Prop :=
  stores = [] ∨ w.dir ipath = none ∨ w.dir tpath = none ∨
    (∃ i, w.dir ipath = some i ∧ ∀ mi av ma n, ¬ WellFormed (w.data i) mi av ma n) ∨
    (∃ arg ∈ stores, ∃ path index, LocalArg tpath arg path index ∧ w.dir path = none) ∨
    (∃ arg ∈ stores, HttpArg tpath arg ∧ ∀ whole frag, FragOf arg whole frag → ∀ k, ¬ ParamsKey (SpecKey env.getenv w) (frag.getD []) k)

theorem mem_writesOf {evs : List Event} {i pos : Nat} {d : Bytes} (h : Event.write i pos d ∈ evs) : (pos, d) ∈ writesOf evs := by
  induction evs with
  | nil => simp at h
  | cons e evs ih =>
    rcases List.mem_cons.1 h with h | h
    · subst h; simp [writesOf]
    · have := ih h
      cases e <;> simp [writesOf, this]

/-- **C37** (partial): if csn cannot be used with its arguments it does not succeed, and no file is modified or created.
Missing: "exits with failure" - the run may also be killed, and it may abort because of another store (an empty target
index for the target as store, or a local store that is too small; C57, `C37_abort_refuted`). -/
theorem C37_failing_start_partial (env : Env) (w w' : World) (ipath tpath : Bytes) (stores : List Bytes) (hsc : Scene env w ipath tpath stores)
    (hbad : Unusable env w ipath tpath stores) (o : Res Bool) (hrun : csnMain env (ipath :: tpath :: stores) w = (o, w')) :
    (o = .ok false ∨ o = .stop .killed ∨ o = .stop .abort ∧ StartAborts w ipath tpath stores) ∧ w'.data = w.data ∧ w'.dir = w.dir ∧ w'.kind = w.kind ∧ w'.next = w.next := by
  by_cases hne : stores = []
  · subst hne
    have : csnMain env [ipath, tpath] w = (.ok false, w) := rfl
    rw [this] at hrun
    cases hrun
    exact ⟨Or.inl rfl, rfl, rfl, rfl, rfl⟩
  rcases run_cases hsc hrun with ⟨h1, ⟨evs, hc, _⟩, _, h3⟩ | ⟨ti, segs, h1, h2, ⟨s, w1, hr⟩, _⟩
  · refine ⟨?_, hc.data, hc.dir, hc.kind, hc.next⟩
    cases o with
    | ok r => cases r with
      | false => exact Or.inl rfl
      | true => exact absurd rfl h1
    | stop s =>
      rcases h3 s rfl with h | h
      · exact Or.inr (Or.inl (by rw [h]))
      · exact Or.inr (Or.inr ⟨by rw [h.1], h.2⟩)
  · exfalso
    have hstore : ∀ arg ∈ stores, ∃ st, StoreFrom env w tpath s.p arg st := by
      intro arg ha
      obtain ⟨t0, _, happ⟩ := hr.app
      obtain ⟨k, hk, hk'⟩ := List.mem_iff_getElem.1 ha
      have hlt : k < s.chain.subs.length := by rw [happ.len]; exact hk
      obtain ⟨_, arg', g1, g2⟩ := happ.each k _ (List.getElem?_eq_getElem hlt)
      rw [List.getElem?_eq_getElem hk, hk', Option.some.injEq] at g1
      exact ⟨_, g1 ▸ g2⟩
    rcases hbad with h | h | h | ⟨i, h, h'⟩ | ⟨arg, ha, path, index, h, h'⟩ | ⟨arg, ha, h, h'⟩
    · exact hne h
    · rw [hr.idx] at h; cases h
    · rw [hr.tgt] at h; cases h
    · rw [hr.idx] at h
      cases h
      exact h' _ _ _ _ hr.wf
    · obtain ⟨st, g⟩ := hstore arg ha
      cases st with
      | target => exact h.1 g
      | http _ => exact h.2.1 g.1.2
      | loc l =>
        obtain ⟨path', index', d, g1, g2, _⟩ := g
        have := (localArg_eq h g1).1
        rw [this, g2] at h'
        cases h'
    · obtain ⟨st, g⟩ := hstore arg ha
      cases st with
      | target => exact h.1 g
      | http hh =>
        obtain ⟨_, _, _, frag, ⟨whole, g1, _⟩, g2⟩ := g
        exact h' whole frag g1 _ g2
      | loc l =>
        obtain ⟨path', index', d, g1, g2, _⟩ := g
        exact g1.2.1 h.2

/-- **C37** for too few arguments. -/
theorem C37_too_few_arguments (env : Env) (w : World) (args : List Bytes) (h : args.length < 3) : csnMain env args w = (.ok false, w) := by
  match args with
  | [] => rfl
  | [_] => rfl
  | [_, _] => rfl
  | _ :: _ :: _ :: _ => simp only [List.length_cons] at h; omega

/-! ### C58 -/

/-- **C58** (partial): every write of a run, whatever its outcome, goes to the target and carries a piece of a chunk for the
region it lies in, and that chunk's hash is the region's ID.  The hash is only guaranteed if neighbouring entries with
the same ID have the same length (`C58_refuted`). -/
theorem C58_only_verified_data_partial (env : Env) (w w' : World) (ipath tpath : Bytes) (stores : List Bytes) (hsc : Scene env w ipath tpath stores) (o : Res Bool)
    (hrun : csnMain env (ipath :: tpath :: stores) w = (o, w')) :
    ∃ evs, w'.log = w.log ++ evs ∧ ∀ i pos d, Event.write i pos d ∈ evs → w.dir tpath = some i ∧ d ≠ [] ∧
      ∃ segs, Describes w ipath segs ∧ ∃ s ∈ segs, PieceFor env.H (Regular segs) s pos d := by
  rcases run_cases hsc hrun with ⟨_, ⟨evs, hc, he⟩, _⟩ | ⟨ti, segs, h1, h2, _, ⟨pre, post, rest, m, d, hs, _⟩, _⟩
  · refine ⟨evs, hc.log, fun i pos d hm => ?_⟩
    rcases he _ hm with ⟨_, h⟩ | ⟨_, h⟩ | ⟨_, h⟩ <;> cases h
  · obtain ⟨evs, l1, l2, l3, _, l5⟩ := hs.log
    refine ⟨evs, l1, fun i pos d hm => ?_⟩
    have hw : (pos, d) ∈ writesOf evs := mem_writesOf hm
    have hi : i = ti := by
      rcases l2 _ hm with ⟨_, _, h⟩ | ⟨_, h⟩ | ⟨_, _, h⟩ | ⟨_, h⟩ | ⟨_, _, h⟩ | (⟨_, h⟩ | ⟨_, _, h⟩) | ⟨_, h⟩ | ⟨_, h⟩ | ⟨_, h⟩ <;> cases h
      rfl
    exact ⟨by rw [hi]; exact h1, contig_ne l3 _ hw, segs, h2, l5 _ hw⟩

end Csn.Props
