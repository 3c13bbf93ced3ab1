import Verif.Proof.Edits
import Verif.Props.Missing
import Verif.Props.Publish
/-
C91: what an edit costs.
-/
namespace Csn.Props
open Csn Spec Proof

/-! ### Scans of two versions of a file -/

/-- **C91**: a chunk that ends within the common start of two files, and not only because its file ends, is reported for both. -/
theorem C91_before (H : Bytes → Id) {disc bufsiz p d} (env : ScanEnv disc bufsiz p d) (u x y : Bytes) (s1 s2 : List Sys) (hz1 : Sys.zero ∉ s1.tail) (hz2 : Sys.zero ∉ s2.tail)
    (ok1 : (scan H disc bufsiz p (u ++ x) s1).1 = .ok) (ok2 : (scan H disc bufsiz p (u ++ y) s2).1 = .ok) (s : Seg) (hs : s ∈ (scan H disc bufsiz p (u ++ x) s1).2)
    (hu : s.off + s.len ≤ u.length) (hl : s.off + s.len < (u ++ x).length) : s ∈ (scan H disc bufsiz p (u ++ y) s2).2 := by
  obtain ⟨c1, h1, e1⟩ := C01_scan_reports_spec_chunks H env _ s1 hz1 ok1
  obtain ⟨c2, h2, e2⟩ := C01_scan_reports_spec_chunks H env _ s2 hz2 ok2
  rw [e1] at hs
  rw [e2]
  obtain ⟨⟨o, c⟩, hm, rfl⟩ := List.mem_map.1 hs
  exact List.mem_map.2 ⟨(o, c), chunks_before h1 rfl h2 0 o c hm (by simpa using hu) (by simpa using hl), rfl⟩

theorem edge_boundary (H : Bytes → Id) {cs : List Bytes} {b : Nat} (h : EdgeAt cs b) : Boundary (report H cs) b := by
  obtain ⟨a, c, rfl, rfl⟩ := edge_split h
  rcases List.eq_nil_or_concat a with rfl | ⟨a', z, rfl⟩
  · exact Or.inl rfl
  · rw [List.concat_eq_append]
    refine Or.inr ⟨⟨a'.flatten.length, z.length, H z⟩, List.mem_map.2 ⟨(0 + a'.flatten.length, z), ?_, by rw [Nat.zero_add]⟩, by simp⟩
    rw [List.append_assoc, List.singleton_append]
    exact split_place 0

/-- **C91**: two files with a common end `t`: if the one has a chunk within it that ends at `e` because of the hash, and in the other one a chunk
starts within that chunk, but far enough before `e`, then both have a boundary there, and the same chunks from there on. -/
theorem C91_meet (H : Bytes → Id) {disc bufsiz p d} (env : ScanEnv disc bufsiz p d) (a b t : Bytes) (s1 s2 : List Sys) (hz1 : Sys.zero ∉ s1.tail) (hz2 : Sys.zero ∉ s2.tail)
    (ok1 : (scan H disc bufsiz p (a ++ t) s1).1 = .ok) (ok2 : (scan H disc bufsiz p (b ++ t) s2).1 = .ok) (i e i2 : Nat) (id : Id)
    (hs : ⟨a.length + i, e - i, id⟩ ∈ (scan H disc bufsiz p (a ++ t) s1).2) (hi : i ≤ e) (he : e < t.length) (hma : e - i < p.max)
    (hb : Boundary (scan H disc bufsiz p (b ++ t) s2).2 (b.length + i2)) (h1 : i ≤ i2) (h2 : i2 + p.min ≤ e) (h3 : i2 + 48 ≤ e) :
    Boundary (scan H disc bufsiz p (b ++ t) s2).2 (b.length + e) ∧
    after (a.length + e) (scan H disc bufsiz p (a ++ t) s1).2 = after (b.length + e) (scan H disc bufsiz p (b ++ t) s2).2 := by
  obtain ⟨c1, g1, e1⟩ := C01_scan_reports_spec_chunks H env _ s1 hz1 ok1
  obtain ⟨c2, g2, e2⟩ := C01_scan_reports_spec_chunks H env _ s2 hz2 ok2
  have hedge : EdgeAt c1 (a.length + e) ∧ EdgeAt c2 (b.length + e) := by
    rw [e1] at hs
    rw [e2] at hb
    obtain ⟨⟨o, c⟩, hm, hq⟩ := List.mem_map.1 hs
    simp only [Seg.mk.injEq] at hq
    obtain ⟨rfl, hc, -⟩ := hq
    obtain ⟨x, y, rfl, hl⟩ := boundary_split H c2 _ hb
    have := edges_meet g1 g2 hm (by omega) (by omega) (hl ▸ split_edge) h1 (by omega) (by omega)
    rwa [hc, Nat.add_sub_cancel' hi] at this
  have hb1 : Boundary (scan H disc bufsiz p (a ++ t) s1).2 (a.length + e) := by rw [e1]; exact edge_boundary H hedge.1
  have hb2 : Boundary (scan H disc bufsiz p (b ++ t) s2).2 (b.length + e) := by rw [e2]; exact edge_boundary H hedge.2
  refine ⟨hb2, ?_⟩
  have k : ∀ z : Bytes, z ++ t = (z ++ t.take e) ++ t.drop e := fun z => by rw [List.append_assoc, List.take_append_drop]
  have l : ∀ z : Bytes, z.length + e = (z ++ t.take e).length := fun z => by rw [List.length_append, List.length_take]; omega
  rw [k a] at ok1 hb1 ⊢
  rw [k b] at ok2 hb2 ⊢
  rw [l a] at hb1 ⊢
  rw [l b] at hb2 ⊢
  exact C05_resynchronisation H env _ _ _ s1 s2 hz1 hz2 ok1 ok2 hb1 hb2

/-! ### Runs -/

theorem placed_place {H : Bytes → Id} : ∀ (cs : List Bytes) (o : Nat) (s : Seg),
    s ∈ (placed o (cs.map (fun c => (c.length, H c)))).map (fun x => (⟨x.1, x.2.1, x.2.2⟩ : Seg)) → ∃ c, (s.off, c) ∈ place o cs ∧ s.len = c.length ∧ s.id = H c
  | [], _, _, h => by simp [placed] at h
  | c :: cs, o, s, h => by
    simp only [List.map_cons, placed, List.mem_cons] at h
    rcases h with rfl | h
    · exact ⟨c, List.mem_cons_self, rfl, rfl⟩
    · obtain ⟨c', h1, h2, h3⟩ := placed_place cs _ s h
      exact ⟨c', List.mem_cons_of_mem _ h1, h2, h3⟩

theorem chunk_of_place {cs : List Bytes} {b o : Nat} {c : Bytes} (h : (o, c) ∈ place b cs) : c ∈ cs := by
  obtain ⟨x, y, rfl, -⟩ := place_mem_split h
  simp

/-- A chunk of the new version that the old one does not have lies around the edit. -/
theorem around_edit {mi ma d : Nat} {u m m' t : Bytes} {cs cs' : List Bytes} (hnew : Chunking mi ma d (u ++ m ++ t) cs) (hold : Chunking mi ma d (u ++ m' ++ t) cs')
    (hb : EdgeAt cs (u.length + m.length)) (hb' : EdgeAt cs' (u.length + m'.length)) {o : Nat} {c : Bytes} (hm : (o, c) ∈ place 0 cs) (hn : c ∉ cs') :
    u.length ≤ o + max ma 48 ∧ o + c.length ≤ u.length + m.length ∧ (u.length < o + c.length ∨ o + c.length = (u ++ m ++ t).length) := by
  have hne := chunking_nonempty hnew
  have hafter : o < u.length + m.length := by
    refine Nat.lt_of_not_le fun hle => hn ?_
    have := chunks_after (a := u ++ m) (b := u ++ m') (t := t) (o := o - (u.length + m.length)) hnew hold (by simpa using hb) (by simpa using hb')
      (c := c) (by rw [List.length_append, Nat.add_sub_cancel' hle]; exact hm)
    exact chunk_of_place this
  have hbefore : u.length < o + c.length ∨ o + c.length = (u ++ m ++ t).length := by
    by_cases hu : u.length < o + c.length
    · exact Or.inl hu
    · refine Or.inr ?_
      obtain ⟨x, y, hcs, hl⟩ := place_mem_split hm
      have hfl := congrArg List.length (chunking_flatten hnew)
      rw [hcs, List.flatten_append, List.length_append, List.flatten_cons, List.length_append] at hfl
      refine Nat.le_antisymm (by omega) (Nat.le_of_not_lt fun hlt => hn ?_)
      rw [List.append_assoc] at hnew hold hlt
      exact chunk_of_place (chunks_before hnew rfl hold 0 o c hm (by omega) (by omega))
  have hend : o + c.length ≤ u.length + m.length := by
    obtain ⟨a, r, rfl, hl⟩ := edge_split hb
    rw [place_append] at hm
    rcases List.mem_append.1 hm with hm | hm
    · obtain ⟨x, y, rfl, hx⟩ := place_mem_split hm
      rw [List.flatten_append, List.length_append, List.flatten_cons, List.length_append] at hl
      omega
    · have := place_off_ge _ _ _ hm
      simp only at this
      omega
  have hle := chunking_le hnew c (chunk_of_place hm)
  have hmax : Nat.max ma 48 = max ma 48 := rfl
  rw [hmax] at hle
  refine ⟨?_, hend, hbefore⟩
  rcases hbefore with h | h
  · omega
  · rw [List.length_append, List.length_append] at h
    omega

section
variable {env : Env} {w w' : World} {ipath tpath arg path : Bytes} {stores : List Bytes} {ti ii io k mi av ma d : Nat} {u m m' t : Bytes} {cs cs' : List Bytes} {o : Res Bool}

/-- What the index file of an image describes. -/
theorem index_segs (hii : w.dir ipath = some ii) (hidx : w.data ii = encode mi av ma (cs.map (fun c => (c.length, env.H c))))
    (henc : Encodable mi av ma (cs.map (fun c => (c.length, env.H c)))) (hfit : ∀ c ∈ cs, c.length ≤ env.bufMax) (hdis : Distinct env w tpath stores cs) :
    ∃ segs n, WellFormed (w.data ii) mi av ma n ∧ Describes w ipath segs ∧ (∀ s ∈ segs, ∃ c, (s.off, c) ∈ place 0 cs ∧ s.len = c.length ∧ s.id = env.H c) ∧
      total segs = cs.flatten.length ∧ (∀ s ∈ segs, s.len ≠ 0 ∧ s.len ≤ env.bufMax) ∧ (∀ s ∈ segs, ∀ s' ∈ segs, s.id = s'.id → s.len = s'.len) ∧ NoClash env w tpath stores segs := by
  have hwf := encode_wellFormed henc
  rw [← hidx] at hwf
  have hseg : delivered 0 (tableEntries (w.data ii) (cs.map (fun c => (c.length, env.H c))).length) =
      (placed 0 (cs.map (fun c => (c.length, env.H c)))).map (fun x => (⟨x.1, x.2.1, x.2.2⟩ : Seg)) := by
    rw [delivered_ascending 0 _ (by rw [hidx, encode_entries henc]; exact ascending_ends 0 _ (fun c hc => (henc.lens c hc).2)) (tableEntries_lt _ _),
      hidx, encode_entries henc, consecutive_ends]
  generalize hsegs : (placed 0 (cs.map (fun c => (c.length, env.H c)))).map (fun x => (⟨x.1, x.2.1, x.2.2⟩ : Seg)) = segs at hseg
  have hmem : ∀ s ∈ segs, ∃ c, (s.off, c) ∈ place 0 cs ∧ s.len = c.length ∧ s.id = env.H c := fun s hs => placed_place cs 0 s (by rw [hsegs]; exact hs)
  refine ⟨segs, _, hwf, ⟨ii, mi, av, ma, _, hii, hwf, hseg.symm⟩, hmem, by rw [← hsegs]; exact total_placed (H := env.H) cs 0, ?_, ?_, ?_⟩
  · intro s hs
    obtain ⟨c, hc, e1, _⟩ := hmem s hs
    rw [e1]
    exact ⟨Nat.pos_iff_ne_zero.1 (henc.lens (c.length, env.H c) (List.mem_map.2 ⟨c, chunk_of_place hc, rfl⟩)).1, hfit c (chunk_of_place hc)⟩
  · intro s hs s' hs' e
    obtain ⟨c, hc, e1, e2⟩ := hmem s hs
    obtain ⟨c', hc', e1', e2'⟩ := hmem s' hs'
    rw [e1, e1', hdis c' (chunk_of_place hc') c (Or.inl ⟨c, chunk_of_place hc, rfl⟩) (by rw [← e2, ← e2', e])]
  · intro s hs x hx e
    obtain ⟨c, hc, e1, e2⟩ := hmem s hs
    rw [e2] at hx e
    rw [e1, hdis c (chunk_of_place hc) x (Or.inr hx) e]

/-- **C91**: a run of csn for a new version, `u m t`, of a file of which the old one, `u m' t`, is a local store, and both have a chunk boundary
where `t` starts: stores after it are only asked for chunks that lie around the edit, between the maximal chunk size before `m` and the end
of `m`. -/
theorem C91_asked (hsc : Scene env w ipath tpath stores) (hu : Usable env w ipath tpath stores) (ht : w.dir tpath = some ti) (hii : w.dir ipath = some ii)
    (hidx : w.data ii = encode mi av ma (cs.map (fun c => (c.length, env.H c)))) (henc : Encodable mi av ma (cs.map (fun c => (c.length, env.H c))))
    (hfit : ∀ c ∈ cs, c.length ≤ env.bufMax) (hdis : Distinct env w tpath stores cs) (h63 : cs.flatten.length < 2 ^ 63)
    (hdisc : env.disc av = some d) (hnew : Chunking mi ma d (u ++ m ++ t) cs) (hold : Chunking mi ma d (w.data io) cs') (hseed : w.data io = u ++ m' ++ t)
    (hb : EdgeAt cs (u.length + m.length)) (hb' : EdgeAt cs' (u.length + m'.length)) (hk : stores[k]? = some arg) (hloc : LocalArg tpath arg path none) (hio : w.dir path = some io)
    (hrun : csnMain env (ipath :: tpath :: stores) w = (o, w')) :
    ∃ evs, w'.log = w.log ++ evs ∧ ∀ j id, (j, id) ∈ asksOf evs → k < j → ∃ off c, (off, c) ∈ place 0 cs ∧ env.H c = id ∧ u.length ≤ off + max ma 48 ∧
      off + c.length ≤ u.length + m.length ∧ (u.length < off + c.length ∨ off + c.length = (u ++ m ++ t).length) := by
  obtain ⟨segs, n, hwf, hdes, hmem, htot, h1, h2, h3⟩ := index_segs hii hidx henc hfit hdis
  obtain ⟨evs, g1, g2⟩ := C76_only_missing_partial (p := ⟨mi, av, ma⟩) hsc hu ht hii hwf hdes h1 h2 h3 (by rw [htot]; exact h63) hrun
  refine ⟨evs, g1, fun j id hj hkj => ?_⟩
  obtain ⟨⟨s, hs, rfl⟩, hmiss⟩ := g2 j id hj
  obtain ⟨c, hc, e1, e2⟩ := hmem s hs
  refine ⟨s.off, c, hc, e2.symm, around_edit hnew (hseed ▸ hold) hb hb' hc fun hin => ?_⟩
  exact hmiss s hs rfl k arg hkj hk (.scan path none io hloc (fun _ _ h => nomatch h) hio ⟨d, cs', c, hdisc, hold, hin, e2.symm⟩)

theorem nodup_length_le {α : Type} [DecidableEq α] : ∀ {l r : List α}, l.Nodup → (∀ x ∈ l, x ∈ r) → l.length ≤ r.length
  | [], _, _, _ => Nat.zero_le _
  | x :: l, r, hn, h => by
    rw [List.nodup_cons] at hn
    have hx := h x List.mem_cons_self
    have := nodup_length_le (l := l) (r := r.erase x) hn.2 fun y hy => by
      have hne : y ≠ x := fun e => hn.1 (e ▸ hy)
      exact (List.mem_erase_of_ne hne).2 (h y (List.mem_cons_of_mem _ hy))
    rw [List.length_erase_of_mem hx] at this
    have := List.length_pos_of_mem hx
    simp only [List.length_cons]
    omega

/-- **C91**: so the number of different chunks that stores after the old version are asked for is bounded by the length of what was
inserted, however long the file is. -/
theorem C91_few (hsc : Scene env w ipath tpath stores) (hu : Usable env w ipath tpath stores) (ht : w.dir tpath = some ti) (hii : w.dir ipath = some ii)
    (hidx : w.data ii = encode mi av ma (cs.map (fun c => (c.length, env.H c)))) (henc : Encodable mi av ma (cs.map (fun c => (c.length, env.H c))))
    (hfit : ∀ c ∈ cs, c.length ≤ env.bufMax) (hdis : Distinct env w tpath stores cs) (h63 : cs.flatten.length < 2 ^ 63)
    (hdisc : env.disc av = some d) (hnew : Chunking mi ma d (u ++ m ++ t) cs) (hold : Chunking mi ma d (w.data io) cs') (hseed : w.data io = u ++ m' ++ t)
    (hb : EdgeAt cs (u.length + m.length)) (hb' : EdgeAt cs' (u.length + m'.length)) (hk : stores[k]? = some arg) (hloc : LocalArg tpath arg path none) (hio : w.dir path = some io)
    (hrun : csnMain env (ipath :: tpath :: stores) w = (o, w')) :
    ∃ evs, w'.log = w.log ++ evs ∧ ∀ l : List Id, l.Nodup → (∀ id ∈ l, ∃ j, k < j ∧ (j, id) ∈ asksOf evs) → l.length ≤ (m.length + max ma 48) / max mi 48 + 1 := by
  obtain ⟨evs, g1, g2⟩ := C91_asked hsc hu ht hii hidx henc hfit hdis h63 hdisc hnew hold hseed hb hb' hk hloc hio hrun
  refine ⟨evs, g1, fun l hl h => ?_⟩
  have hle : l.length ≤ (((place 0 cs).filter (fun x => decide (u.length - max ma 48 ≤ x.1 ∧ x.1 + x.2.length ≤ u.length + m.length))).map (fun x => env.H x.2)).length := by
    refine nodup_length_le hl fun id hid => ?_
    obtain ⟨j, hkj, hj⟩ := h id hid
    obtain ⟨off, c, f1, f2, f3, f4, -⟩ := g2 j id hj hkj
    exact List.mem_map.2 ⟨(off, c), List.mem_filter.2 ⟨f1, by simp only [decide_eq_true_eq]; omega⟩, f2⟩
  rw [List.length_map] at hle
  have hmm : mi ≤ ma := by have := henc.sizes; omega
  have hbt := chunks_between (max mi 48) (u.length - max ma 48) (u.length + m.length) cs 0 (chunking_ge hmm hnew)
  have hpos : 0 < max mi 48 := by omega
  have : l.length * max mi 48 ≤ m.length + max ma 48 + max mi 48 := by
    refine Nat.le_trans (Nat.mul_le_mul_right _ hle) (Nat.le_trans hbt ?_)
    omega
  rw [← Nat.add_div_right _ hpos]
  exact (Nat.le_div_iff_mul_le hpos).2 this

/-- **C91**: and if the chunks around the edit can be had, the run is killed or ends with the new version on the target: it is enough to
publish these. -/
theorem C91_update (hsc : Scene env w ipath tpath stores) (hu : Usable env w ipath tpath stores) (ht : w.dir tpath = some ti) (hii : w.dir ipath = some ii)
    (hidx : w.data ii = encode mi av ma (cs.map (fun c => (c.length, env.H c)))) (henc : Encodable mi av ma (cs.map (fun c => (c.length, env.H c))))
    (hfit : ∀ c ∈ cs, c.length ≤ env.bufMax) (hdis : Distinct env w tpath stores cs) (hblk : w.kind ti = .blk → cs.flatten.length ≤ (w.data ti).length)
    (h63 : cs.flatten.length < 2 ^ 63) (hdisc : env.disc av = some d) (hnew : Chunking mi ma d (u ++ m ++ t) cs) (hold : Chunking mi ma d (w.data io) cs')
    (hseed : w.data io = u ++ m' ++ t) (hb : EdgeAt cs (u.length + m.length)) (hb' : EdgeAt cs' (u.length + m'.length)) (hk : arg ∈ stores) (hloc : LocalArg tpath arg path none)
    (hio : w.dir path = some io)
    (hsrc : ∀ off c, (off, c) ∈ place 0 cs → u.length ≤ off + max ma 48 → off + c.length ≤ u.length + m.length → (u.length < off + c.length ∨ off + c.length = (u ++ m ++ t).length) →
      ∃ arg' ∈ stores, Source env w tpath ⟨mi, av, ma⟩ arg' ⟨off, c.length, env.H c⟩)
    (hrun : csnMain env (ipath :: tpath :: stores) w = (o, w')) : o = .stop .killed ∨ o = .ok true ∧ u ++ m ++ t <+: w'.data ti := by
  obtain ⟨segs, n, hwf, hdes, hmem, htot, h1, h2, h3⟩ := index_segs hii hidx henc hfit hdis
  have h4 : Obtainable env w tpath ti ⟨mi, av, ma⟩ stores segs := by
    intro a s b e
    obtain ⟨c, hc, e1, e2⟩ := hmem s (by rw [e]; simp)
    refine Or.inr (Or.inr ?_)
    by_cases hin : c ∈ cs'
    · exact ⟨arg, hk, .scan path none io hloc (fun _ _ h => nomatch h) hio ⟨d, cs', c, hdisc, hold, hin, e2.symm⟩⟩
    · obtain ⟨a1, a2, a3⟩ := around_edit hnew (hseed ▸ hold) hb hb' hc hin
      have := hsrc s.off c hc a1 a2 a3
      rw [← e1, ← e2] at this
      exact this
  rcases C36_available_partial (p := ⟨mi, av, ma⟩) hsc hu ht hii hwf hdes h1 h2 h3 (by rw [htot]; exact hblk) (by rw [htot]; exact h63) h4 hrun with h | ⟨rfl, _⟩
  · exact Or.inl h
  · obtain ⟨ti', g1, g2⟩ := C28_image_partial env w w' ipath tpath stores hsc mi av ma cs ii hii hidx henc (fun c hc x hx => hdis c hc x (Or.inl hx)) hrun
    rw [ht] at g1
    cases g1
    rw [chunking_flatten hnew] at g2
    exact Or.inr ⟨rfl, g2⟩

end

/-! ### Cases -/

/-- A file where a byte is missing, `editT` is what follows. -/
def editT : Bytes := [0] ++ exB ++ exT

def editScan (a : Bytes) : ScanRes × List Seg := scan exH discExact 8192 exP (a ++ editT) [.some 0, .some 63, .some 90, .some 0]

/-- The second chunk of the longer file starts with `editT` and ends because of the hash; in the other file the chunk that ends there is one
byte shorter. -/
example : (editScan (exFile.take 50)).2.map (fun s => (s.off, s.len)) = [(0, 50), (50, 49), (99, 5)] ∧
    (editScan (exFile.take 49)).2.map (fun s => (s.off, s.len)) = [(0, 50), (50, 48), (98, 5)] := by decide +kernel

/-- The hypotheses of `C91_meet` hold. -/
example : Boundary (editScan (exFile.take 49)).2 ((exFile.take 49).length + 49) ∧
    after ((exFile.take 50).length + 49) (editScan (exFile.take 50)).2 = after ((exFile.take 49).length + 49) (editScan (exFile.take 49)).2 :=
  C91_meet exH (disc := discExact) (bufsiz := 8192) (p := exP) (d := 15) ⟨by decide, by decide, by decide, by decide, by decide⟩ (exFile.take 50) (exFile.take 49) editT
    [.some 0, .some 63, .some 90, .some 0] [.some 0, .some 63, .some 90, .some 0] (by decide) (by decide) (by decide +kernel) (by decide +kernel) 0 49 1 (exH ([0] ++ exB))
    (by decide +kernel) (by decide) (by decide) (by decide) (Or.inr ⟨⟨0, 50, exH (exFile.take 49 ++ [0])⟩, by decide +kernel, by decide +kernel⟩) (by decide) (by decide) (by decide)

/-- The hypotheses of `C91_before` hold for the first chunk of this file and one that goes on differently. -/
example : (⟨0, 50, exH (exFile.take 50)⟩ : Seg) ∈ (editScan (exFile.take 50)).2 ∧
    (⟨0, 50, exH (exFile.take 50)⟩ : Seg) ∈ (scan exH discExact 8192 exP (exFile.take 50 ++ exT) [.some 0, .some 63, .some 0]).2 := by
  have h : (⟨0, 50, exH (exFile.take 50)⟩ : Seg) ∈ (editScan (exFile.take 50)).2 := by decide +kernel
  exact ⟨h, C91_before exH (disc := discExact) (bufsiz := 8192) (p := exP) (d := 15) ⟨by decide, by decide, by decide, by decide, by decide⟩ (exFile.take 50) editT exT
    _ _ (by decide) (by decide) (by decide +kernel) (by decide +kernel) _ h (by decide) (by decide)⟩

/-- The store "s" is the old version, `exC1 exC2`; the new one is `exC1 exC3`, and the server has only `exC3`. -/
def editWorld : World := { syncWorld sideIdx [] [] manySys with net := [fun _ => ⟨[], 7, none⟩, serveC3, serveC3] }

theorem edit_chunks : Chunking 10 50 15 (exC1 ++ exC3 ++ []) [exC1, exC3] := by
  refine .cut (n := 50) (cs := [exC3]) ⟨⟨by decide, by decide +kernel, Or.inl (by decide)⟩, ?_⟩ (.last (by decide +kernel) ?_)
  · rintro m hm ⟨h1, _, h2⟩
    have : m = 48 ∨ m = 49 := by omega
    rcases h2 with h2 | ⟨_, h2⟩
    · omega
    · rcases this with rfl | rfl
      · exact absurd h2 (by decide +kernel)
      · exact absurd h2 (by decide +kernel)
  · rintro n ⟨h1, h2, _⟩
    have : ((exC1 ++ exC3 ++ []).drop 50).length = 20 := by decide +kernel
    omega

theorem editScene : Scene syncEnv editWorld (str "i") (str "t") [str "s", str "http://h"] := by
  have h0 : Scene syncEnv (syncWorld sideIdx [] [] manySys) (str "i") (str "t") [str "s"] := syncWorld_scene sideIdx_wf _ (by simp) (by simp)
  refine ⟨h0.lib, h0.sane, ?_, h0.apart, ?_, fun _ => h0.scan ⟨str "s", by simp, str "s", none, mix_local⟩, by decide⟩
  · intro f hf url x hx
    simp only [editWorld, List.mem_cons, List.not_mem_nil, or_false] at hf
    rcases hf with rfl | rfl | rfl
    · simp at hx
    · exact ((serve_polite url).frags x hx).2
    · exact ((serve_polite url).frags x hx).2
  · intro arg ha path index hl i hi
    simp only [List.mem_cons, List.not_mem_nil, or_false] at ha
    rcases ha with rfl | rfl
    · exact h0.own _ (by simp) path index hl i hi
    · exact absurd (by decide) hl.2.1

theorem editUsable : Usable syncEnv editWorld (str "i") (str "t") [str "s", str "http://h"] where
  clean := show Clean manySys from ⟨by decide +kernel, by decide +kernel⟩
  mem := List.not_mem_nil
  files := by
    intro path i h
    have e1 : exFile.length < 2 ^ 56 := by decide +kernel
    have e2 : sideIdx.length < 2 ^ 56 := by decide +kernel
    simp only [editWorld, syncWorld] at h ⊢
    split
    · exact e1
    · split
      · exact e2
      · split
        · exact Nat.two_pow_pos 56
        · split <;> exact Nat.two_pow_pos 56
  given := by simp
  kcapi := by decide +kernel
  target := ⟨3, rfl⟩
  index := by
    refine ⟨2, 10, 20, 50, 2, rfl, by simp [editWorld, syncWorld], sideIdx_wf, by decide, ?_⟩
    intro arg ha path idx hl
    simp only [List.mem_cons, List.not_mem_nil, or_false] at ha
    rcases ha with rfl | rfl
    · obtain ⟨rfl, rfl⟩ := localArg_eq hl mix_local
      refine ⟨⟨1, rfl, by simp [editWorld, syncWorld], ?_⟩, by intro _ _ _ _ _ _ h; cases h⟩
      show 10 * 20 ≤ 12 * exFile.length
      decide +kernel
    · exact absurd (by decide) hl.2.1
  urls := by
    intro arg ha hh
    simp only [List.mem_cons, List.not_mem_nil, or_false] at ha
    rcases ha with rfl | rfl
    · exact absurd hh.2 (by decide)
    · exact ⟨by decide, str "http://h", none, none, ⟨rfl, by decide⟩, .empty⟩

theorem edit_distinct : Distinct syncEnv editWorld (str "t") [str "s", str "http://h"] [exC1, exC3] := by
  intro c hc x _ hx
  simp only [List.mem_cons, List.not_mem_nil, or_false] at hc
  rcases hc with rfl | rfl
  · exact mark_eq.1 hx
  · exact mark_eq.2 hx

def editRun : Res Bool × World := csnMain syncEnv [str "i", str "t", str "s", str "http://h"] editWorld

theorem edit_enc : Encodable 10 20 50 ([exC1, exC3].map (fun c => (c.length, syncEnv.H c))) := ⟨by decide, by decide, by decide, by decide, by decide⟩

theorem edit_source {off : Nat} : Source syncEnv editWorld (str "t") ⟨10, 20, 50⟩ (str "http://h") ⟨off, exC3.length, syncEnv.H exC3⟩ := by
  refine .web 24 ⟨by decide, by decide⟩ (fun base frag key h1 h2 => ?_)
  obtain ⟨rfl, rfl⟩ := mix_base h1
  have := mix_key h2
  subst this
  exact ⟨mix_answers, mix_hosts⟩

attribute [local irreducible] csnMain in
/-- The hypotheses of `C91_asked` and `C91_few` hold: the server is asked for at most two chunks ... -/
example : (∃ evs, editRun.2.log = editWorld.log ++ evs ∧ ∀ j id, (j, id) ∈ asksOf evs → 0 < j → ∃ off c, (off, c) ∈ place 0 [exC1, exC3] ∧ syncEnv.H c = id ∧
      exC1.length ≤ off + max 50 48 ∧ off + c.length ≤ exC1.length + exC3.length ∧ (exC1.length < off + c.length ∨ off + c.length = (exC1 ++ exC3 ++ []).length)) ∧
    ∃ evs, editRun.2.log = editWorld.log ++ evs ∧ ∀ l : List Id, l.Nodup → (∀ id ∈ l, ∃ j, 0 < j ∧ (j, id) ∈ asksOf evs) → l.length ≤ (exC3.length + max 50 48) / max 10 48 + 1 :=
  ⟨C91_asked editScene editUsable rfl (ii := 2) (io := 1) (d := 15) (k := 0) (t := []) (m' := exC2) (cs' := [exC1, exC2]) rfl rfl edit_enc (by decide +kernel) edit_distinct (by decide +kernel)
      (by decide) edit_chunks mix_chunks (by decide +kernel) ⟨2, by decide +kernel⟩ ⟨2, by decide +kernel⟩ rfl mix_local rfl (show csnMain _ _ _ = (editRun.1, editRun.2) from rfl),
   C91_few editScene editUsable rfl (ii := 2) (io := 1) (d := 15) (k := 0) (t := []) (m' := exC2) (cs' := [exC1, exC2]) rfl rfl edit_enc (by decide +kernel) edit_distinct (by decide +kernel)
      (by decide) edit_chunks mix_chunks (by decide +kernel) ⟨2, by decide +kernel⟩ ⟨2, by decide +kernel⟩ rfl mix_local rfl (show csnMain _ _ _ = (editRun.1, editRun.2) from rfl)⟩

attribute [local irreducible] csnMain in
/-- ... and those of `C91_update`: the chunks for which it wants a source are `exC3` and, as the theorem counts whatever could be next to the
edit, none else. -/
example : editRun.1 = .stop .killed ∨ editRun.1 = .ok true ∧ exC1 ++ exC3 ++ [] <+: editRun.2.data 3 :=
  C91_update editScene editUsable rfl (ii := 2) (io := 1) (d := 15) (t := []) (m' := exC2) (cs' := [exC1, exC2]) rfl rfl edit_enc (by decide +kernel) edit_distinct (by intro e; cases e)
    (by decide +kernel) (by decide) edit_chunks mix_chunks (by decide +kernel) ⟨2, by decide +kernel⟩ ⟨2, by decide +kernel⟩ (arg := str "s") (by simp) mix_local rfl
    (by
      intro off c hc _ _ h
      simp only [place, List.mem_cons, Prod.mk.injEq, List.not_mem_nil, or_false] at hc
      rcases hc with ⟨rfl, rfl⟩ | ⟨rfl, rfl⟩
      · exact absurd h (by decide +kernel)
      · exact ⟨_, by simp, edit_source⟩)
    (show csnMain _ _ _ = (editRun.1, editRun.2) from rfl)

/-- What happens here. -/
example : editRun.1 = .ok true ∧ asksOf editRun.2.log = [(0, syncEnv.H exC1), (0, syncEnv.H exC3), (1, syncEnv.H exC3)] := by
  constructor <;> decide +kernel

end Csn.Props
