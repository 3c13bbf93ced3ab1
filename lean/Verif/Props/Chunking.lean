import Verif.Proof.Chunking
/-
C01 .. C06: scanning a file for chunks.
-/
namespace Csn.Props
open Csn Spec Proof

/-- Scan a file and record everything that is reported to the callback. -/
def scan (H : Bytes → Id) (disc : Nat → Option Nat) (bufsiz : Nat) (p : Params) (f : Bytes)
    (sys : List Sys) : ScanRes × List Seg :=
  let r := scanFd H disc bufsiz p collect f [] sys
  (r.1, r.2.1)

/-- What a correct scan reports for the pieces `cs`. -/
def report (H : Bytes → Id) (cs : List Bytes) : List Seg :=
  (place 0 cs).map (fun x => ⟨x.1, x.2.length, H x.2⟩)

/-- The environment in which scanning is well defined: parameters accepted by the loader, a
positive discriminator, and the value the build-time check at chunker.c:118 guarantees. -/
structure ScanEnv (disc : Nat → Option Nat) (bufsiz : Nat) (p : Params) (d : Nat) : Prop where
  accepted : paramsSet p.min p.avg p.max = some p
  disc_avg : disc p.avg = some d
  disc_default : disc 65536 = some 0xc17f
  pos : 0 < d
  buf : 0 < bufsiz

theorem segs_eq_place (H : Bytes → Id) (o : Nat) (cs : List Bytes) :
    segs H o cs = (place o cs).map (fun x => ⟨x.1, x.2.length, H x.2⟩) := by
  induction cs generalizing o with
  | nil => rfl
  | cons c cs ih => simp [segs, place, ih]

theorem ScanEnv.deff {disc bufsiz p d} (h : ScanEnv disc bufsiz p d) : deff p d = d := by
  unfold Proof.deff
  split
  · next e => have := h.disc_avg; rw [e, h.disc_default] at this; injection this
  · rfl

theorem paramsSet_some {a b c : Nat} {p : Params} (h : paramsSet a b c = some p) :
    p = ⟨a, b, c⟩ ∧ a < b ∧ b < c ∧ c < 2 ^ 32 := by
  unfold paramsSet at h
  split at h
  · cases h
  · split at h
    · cases h
    · next h1 h2 =>
      injection h with h
      simp at h1 h2
      exact ⟨h.symm, h1.1, h1.2, by omega⟩

/-- Everything about one scan, in one statement (used by the theorems below). -/
theorem scan_outcome (H : Bytes → Id) {disc : Nat → Option Nat} {bufsiz : Nat} {p : Params} {d : Nat}
    (env : ScanEnv disc bufsiz p d) (f : Bytes) (sys : List Sys) :
    ∃ e cs k, e ≤ f.length ∧ (Sys.zero ∉ sys.tail → e = f.length) ∧
      Chunking p.min p.max d (f.take e) cs ∧
      (scan H disc bufsiz p f sys).2 = (report H cs).take k ∧
      (((scan H disc bufsiz p f sys).1 = .ok ∧ cs.length ≤ k) ∨
       ((scan H disc bufsiz p f sys).1 = .fail ∧ Sys.err ∈ sys) ∨
       (scan H disc bufsiz p f sys).1 = .stop .killed) := by
  obtain ⟨_, _, _, hmax⟩ := paramsSet_some env.accepted
  have hd : 0 < deff p d := by rw [env.deff]; exact env.pos
  have triv : ∃ e cs k, e ≤ f.length ∧ (Sys.zero ∉ sys.tail → e = f.length) ∧
      Chunking p.min p.max d (f.take e) cs ∧ ([] : List Seg) = (report H cs).take k := by
    obtain ⟨cs, hcs⟩ := exists_chunking p.min p.max d _ (f.take f.length) (Nat.le_refl _)
    exact ⟨f.length, cs, 0, Nat.le_refl _, fun _ => rfl, hcs, by simp⟩
  have main : ∀ y r, sys = y :: r → ∃ e cs k, e ≤ f.length ∧ (Sys.zero ∉ sys.tail → e = f.length) ∧
      Chunking p.min p.max d (f.take e) cs ∧
      (scanLoop H p d bufsiz collect f Chunker.init 0 0 0 [] r).2.1 = (report H cs).take k ∧
      (((scanLoop H p d bufsiz collect f Chunker.init 0 0 0 [] r).1 = .ok ∧ cs.length ≤ k) ∨
       ((scanLoop H p d bufsiz collect f Chunker.init 0 0 0 [] r).1 = .fail ∧ Sys.err ∈ sys) ∨
       (scanLoop H p d bufsiz collect f Chunker.init 0 0 0 [] r).1 = .stop .killed) := by
    intro y r hsys
    obtain ⟨res, s', r', h1, e, cs, k, x, g0, g1, g2, g3, g4, g5⟩ :=
      scanLoop_spec H hd hmax bufsiz env.buf collect f r Chunker.init 0 [] [] (by simp) (by simp)
        rep_init (noCut_nil p d)
    simp only [List.length_nil, Nat.add_zero] at h1
    rw [h1]
    rw [runCb_collect] at g4
    simp only [List.nil_append, Prod.mk.injEq] at g4
    obtain ⟨hx, hs'⟩ := g4
    rw [List.drop_zero, env.deff] at g3
    refine ⟨e, cs, k, g1, ?_, g3, ?_, ?_⟩
    · intro hz; apply g2; simpa [hsys] using hz
    · rw [← hs', report, segs_eq_place]
    · rcases g5 with g | g | ⟨_, g | g⟩
      · exact Or.inl ⟨g.1, g.2.2⟩
      · exact absurd (g.2 ▸ hx ▸ rfl) g.1
      · exact Or.inr (Or.inl ⟨g.1, by rw [hsys]; exact List.mem_cons_of_mem _ g.2⟩)
      · exact Or.inr (Or.inr g)
  unfold scan scanFd
  rw [env.disc_avg]
  obtain ⟨e, cs, k, t1, t2, t3, t4⟩ := triv
  cases hsys : sys with
  | nil =>
    refine ⟨e, cs, k, t1, ?_, t3, t4, Or.inr (Or.inr rfl)⟩
    simpa [hsys] using t2
  | cons y r =>
    rw [← hsys]
    cases y with
    | eintr => simpa [hsys] using main _ _ hsys
    | err => exact ⟨e, cs, k, t1, t2, t3, by simpa [hsys] using t4, Or.inr (Or.inl ⟨by simp [hsys], by simp [hsys]⟩)⟩
    | zero => simpa [hsys] using main _ _ hsys
    | some n => simpa [hsys] using main _ _ hsys

theorem place_length (o : Nat) (cs : List Bytes) : (place o cs).length = cs.length := by
  induction cs generalizing o with
  | nil => rfl
  | cons c cs ih => simp [place, ih]

theorem report_length (H : Bytes → Id) (cs : List Bytes) : (report H cs).length = cs.length := by
  simp [report, place_length]

/-! ### C01 -/

/-- **C01**: a successful scan reports exactly the chunks of the casync rule, whatever the
fragmentation and interruptions of the reads (a `zero` result would mean a read reporting
end-of-file too early). -/
theorem C01_scan_reports_spec_chunks (H : Bytes → Id) {disc bufsiz p d}
    (env : ScanEnv disc bufsiz p d) (f : Bytes) (sys : List Sys) (hz : Sys.zero ∉ sys.tail)
    (hok : (scan H disc bufsiz p f sys).1 = .ok) :
    ∃ cs, Chunking p.min p.max d f cs ∧ (scan H disc bufsiz p f sys).2 = report H cs := by
  obtain ⟨e, cs, k, h1, h2, h3, h4, h5⟩ := scan_outcome H env f sys
  have he := h2 hz
  subst he
  rw [List.take_length] at h3
  refine ⟨cs, h3, ?_⟩
  rcases h5 with h5 | h5 | h5
  · rw [h4, List.take_of_length_le (by rw [report_length]; exact h5.2)]
  · rw [hok] at h5; simp at h5
  · rw [hok] at h5; simp at h5

/-- **C01**: the chunks of a file are determined by its content and the parameters. -/
theorem C01_rule_is_deterministic {mi ma d : Nat} {f : Bytes} {a b : List Bytes}
    (h1 : Chunking mi ma d f a) (h2 : Chunking mi ma d f b) : a = b := chunking_unique h1 h2

/-- **C01**: two scans of the same content report the same chunks even if read buffer size
and schedules differ. -/
theorem C01_scan_independent_of_schedule (H : Bytes → Id) {disc b1 b2 p d}
    (env1 : ScanEnv disc b1 p d) (env2 : ScanEnv disc b2 p d) (f : Bytes) (s1 s2 : List Sys)
    (hz1 : Sys.zero ∉ s1.tail) (hz2 : Sys.zero ∉ s2.tail)
    (ok1 : (scan H disc b1 p f s1).1 = .ok) (ok2 : (scan H disc b2 p f s2).1 = .ok) :
    (scan H disc b1 p f s1).2 = (scan H disc b2 p f s2).2 := by
  obtain ⟨c1, h1, e1⟩ := C01_scan_reports_spec_chunks H env1 f s1 hz1 ok1
  obtain ⟨c2, h2, e2⟩ := C01_scan_reports_spec_chunks H env2 f s2 hz2 ok2
  rw [e1, e2, chunking_unique h1 h2]

/-- **C01** (liveness): with more successful reads than bytes and no failures the scan succeeds. -/
theorem C01_scan_succeeds (H : Bytes → Id) {disc bufsiz p d} (env : ScanEnv disc bufsiz p d)
    (f : Bytes) (k : Nat) (sys : List Sys) (herr : Sys.err ∉ sys)
    (hmany : f.length < okCalls sys) :
    (scan H disc bufsiz p f (.some k :: sys)).1 = .ok := by
  obtain ⟨_, _, _, hmax⟩ := paramsSet_some env.accepted
  have hd : 0 < deff p d := by rw [env.deff]; exact env.pos
  have hk := scanLoop_killed H p d bufsiz env.buf collect (by intro s x s'; simp [collect]) f sys
    Chunker.init 0 0 0 []
  obtain ⟨res, s', r', h1, e, cs, k', x, g0, g1, g2, g3, g4, g5⟩ :=
    scanLoop_spec H hd hmax bufsiz env.buf collect f sys Chunker.init 0 [] [] (by simp) (by simp)
      rep_init (noCut_nil p d)
  simp only [List.length_nil, Nat.add_zero] at h1
  unfold scan scanFd
  rw [env.disc_avg]
  simp only
  rw [h1] at hk ⊢
  rw [runCb_collect] at g4
  simp only [Prod.mk.injEq] at g4
  rcases g5 with g | g | ⟨_, g | g⟩
  · exact g.1
  · exact absurd (g.2 ▸ g4.1 ▸ rfl) g.1
  · exact absurd g.2 herr
  · have := hk g; omega

/-! ### C02 -/

/-- Segments cover `[o, e)` without gaps or overlaps and are non-empty. -/
def Tiles : Nat → Nat → List Seg → Prop
  | o, e, [] => o = e
  | o, e, s :: r => s.off = o ∧ 0 < s.len ∧ Tiles (o + s.len) e r

theorem tiles_report (H : Bytes → Id) (o : Nat) (cs : List Bytes) (h : ∀ c ∈ cs, c ≠ []) :
    Tiles o (o + cs.flatten.length) ((place o cs).map (fun x => ⟨x.1, x.2.length, H x.2⟩)) := by
  induction cs generalizing o with
  | nil => simp [Tiles, place]
  | cons c cs ih =>
    simp only [place, List.map_cons, Tiles, List.flatten_cons, List.length_append]
    refine ⟨trivial, ?_, ?_⟩
    · exact List.length_pos_iff.2 (h c (by simp))
    · rw [← Nat.add_assoc]
      exact ih _ (fun c hc => h c (by simp [hc]))

/-- **C02**: the reported chunks tile the file. -/
theorem C02_chunks_tile_file (H : Bytes → Id) {disc bufsiz p d}
    (env : ScanEnv disc bufsiz p d) (f : Bytes) (sys : List Sys) (hz : Sys.zero ∉ sys.tail)
    (hok : (scan H disc bufsiz p f sys).1 = .ok) :
    Tiles 0 f.length (scan H disc bufsiz p f sys).2 := by
  obtain ⟨cs, h1, h2⟩ := C01_scan_reports_spec_chunks H env f sys hz hok
  rw [h2]
  have := tiles_report H 0 cs (chunking_nonempty h1)
  rw [chunking_flatten h1, Nat.zero_add] at this
  exact this

/-! ### C03 -/

theorem report_mem {H : Bytes → Id} {o : Nat} {cs : List Bytes} {s : Seg}
    (h : s ∈ (place o cs).map (fun x => (⟨x.1, x.2.length, H x.2⟩ : Seg))) :
    ∃ c ∈ cs, s.len = c.length := by
  induction cs generalizing o with
  | nil => simp [place] at h
  | cons c cs ih =>
    simp only [place, List.map_cons, List.mem_cons] at h
    rcases h with h | h
    · exact ⟨c, by simp, by rw [h]⟩
    · obtain ⟨c', h1, h2⟩ := ih h
      exact ⟨c', by simp [h1], h2⟩

theorem report_take_mem {H : Bytes → Id} {cs : List Bytes} {k : Nat} {s : Seg}
    (h : s ∈ (report H cs).take k) : ∃ c ∈ cs, s.len = c.length :=
  report_mem (List.mem_of_mem_take h)

/-- **C03**: upper bound; holds for every outcome of the scan, also failed or killed ones. -/
theorem C03_chunk_size_upper_bound (H : Bytes → Id) {disc bufsiz p d}
    (env : ScanEnv disc bufsiz p d) (f : Bytes) (sys : List Sys) :
    ∀ s ∈ (scan H disc bufsiz p f sys).2, s.len ≤ max p.max 48 := by
  obtain ⟨e, cs, k, h1, h2, h3, h4, h5⟩ := scan_outcome H env f sys
  intro s hs
  rw [h4] at hs
  obtain ⟨c, hc, hl⟩ := report_take_mem hs
  rw [hl]
  exact chunking_le h3 c hc

theorem dropLast_place (o : Nat) (cs : List Bytes) : (place o cs).dropLast = place o cs.dropLast := by
  induction cs generalizing o with
  | nil => rfl
  | cons c cs ih =>
    cases cs with
    | nil => rfl
    | cons x xs =>
      have := ih (o + c.length)
      simp only [place] at this ⊢
      rw [List.dropLast_cons_cons, this, List.dropLast_cons_cons, place]

/-- **C03**: lower bound for all chunks but the last. -/
theorem C03_chunk_size_lower_bound (H : Bytes → Id) {disc bufsiz p d}
    (env : ScanEnv disc bufsiz p d) (f : Bytes) (sys : List Sys) (hz : Sys.zero ∉ sys.tail)
    (hok : (scan H disc bufsiz p f sys).1 = .ok) :
    ∀ s ∈ (scan H disc bufsiz p f sys).2.dropLast, max p.min 48 ≤ s.len := by
  obtain ⟨cs, h1, h2⟩ := C01_scan_reports_spec_chunks H env f sys hz hok
  obtain ⟨_, ha, hb, _⟩ := paramsSet_some env.accepted
  intro s hs
  rw [h2, report, ← List.map_dropLast, dropLast_place] at hs
  obtain ⟨c, hc, hl⟩ := report_mem hs
  rw [hl]
  exact chunking_ge (by omega) h1 c hc

/-! ### C04 -/

theorem place_sub (o : Nat) (pre : Bytes) (cs : List Bytes) (ho : pre.length = o) :
    ∀ x ∈ place o cs, ((pre ++ cs.flatten).drop x.1).take x.2.length = x.2 := by
  induction cs generalizing o pre with
  | nil => simp [place]
  | cons c cs ih =>
    intro x hx
    simp only [place, List.mem_cons] at hx
    rcases hx with hx | hx
    · subst hx
      simp [← ho]
    · have := ih (o + c.length) (pre ++ c) (by simp [ho]) x hx
      simpa [List.append_assoc] using this

theorem place_mem (o : Nat) (cs : List Bytes) (x : Nat × Bytes) (h : x ∈ place o cs) : x.2 ∈ cs := by
  induction cs generalizing o with
  | nil => simp [place] at h
  | cons c cs ih =>
    simp only [place, List.mem_cons] at h
    rcases h with h | h
    · simp [h]
    · simp [ih _ h]

/-- **C04**: the ID of a reported chunk is the digest of exactly the bytes it denotes; holds
for every outcome of the scan and every schedule. -/
theorem C04_chunk_id_is_digest (H : Bytes → Id) {disc bufsiz p d}
    (env : ScanEnv disc bufsiz p d) (f : Bytes) (sys : List Sys) :
    ∀ s ∈ (scan H disc bufsiz p f sys).2,
      0 < s.len ∧ s.off + s.len ≤ f.length ∧ s.id = H ((f.drop s.off).take s.len) := by
  obtain ⟨e, cs, k, h1, h2, h3, h4, h5⟩ := scan_outcome H env f sys
  intro s hs
  rw [h4] at hs
  have hs := List.mem_of_mem_take hs
  simp only [report, List.mem_map] at hs
  obtain ⟨x, hx, rfl⟩ := hs
  have hsub := place_sub 0 [] cs rfl x hx
  rw [List.nil_append, chunking_flatten h3] at hsub
  have hne : x.2 ≠ [] := by
    exact chunking_nonempty h3 _ (place_mem 0 cs x hx)
  have hpos : 0 < x.2.length := List.length_pos_iff.2 hne
  have hlen := congrArg List.length hsub
  simp only [List.length_take, List.length_drop] at hlen
  refine ⟨hpos, by simp only; omega, ?_⟩
  simp only
  congr 1
  rw [← hsub]
  simp only [List.drop_take, List.take_take]
  rw [show (min (x.2.length) (e - x.1)) = x.2.length by omega]
  congr 1
  rw [List.length_take, List.length_drop]; omega

/-! ### C05 -/

/-- `b` is a chunk boundary of a reported list. -/
def Boundary (L : List Seg) (b : Nat) : Prop := b = 0 ∨ ∃ s ∈ L, s.off + s.len = b

/-- Chunks at or behind position `b`, relative to `b`. -/
def after (b : Nat) (L : List Seg) : List Seg :=
  (L.filter (fun s => b ≤ s.off)).map (fun s => ⟨s.off - b, s.len, s.id⟩)

theorem place_append (o : Nat) (a b : List Bytes) :
    place o (a ++ b) = place o a ++ place (o + a.flatten.length) b := by
  induction a generalizing o with
  | nil => simp [place]
  | cons x xs ih => simp [place, ih, Nat.add_assoc]

theorem place_off_lt (o : Nat) (a : List Bytes) (hne : ∀ c ∈ a, c ≠ []) :
    ∀ x ∈ place o a, x.1 < o + a.flatten.length := by
  induction a generalizing o with
  | nil => simp [place]
  | cons c cs ih =>
    intro x hx
    have hc : 0 < c.length := List.length_pos_iff.2 (hne c (by simp))
    simp only [place, List.mem_cons] at hx
    simp only [List.flatten_cons, List.length_append]
    rcases hx with hx | hx
    · subst hx; simp only; omega
    · have := ih (o + c.length) (fun c h => hne c (by simp [h])) x hx
      omega

theorem place_off_ge (o : Nat) (a : List Bytes) : ∀ x ∈ place o a, o ≤ x.1 := by
  induction a generalizing o with
  | nil => simp [place]
  | cons c cs ih =>
    intro x hx
    simp only [place, List.mem_cons] at hx
    rcases hx with hx | hx
    · subst hx; exact Nat.le_refl _
    · have := ih _ x hx; omega

theorem place_shift (o : Nat) (a : List Bytes) : (place o a).map (fun x => (x.1 - o, x.2)) = place 0 a := by
  suffices h : ∀ k, (place (o + k) a).map (fun x => (x.1 - o, x.2)) = place k a by simpa using h 0
  induction a with
  | nil => simp [place]
  | cons c cs ih =>
    intro k
    simp only [place, List.map_cons, Nat.add_assoc, ih]
    simp

theorem boundary_split (H : Bytes → Id) (cs : List Bytes) (b : Nat)
    (h : Boundary (report H cs) b) : ∃ a c, cs = a ++ c ∧ a.flatten.length = b := by
  rcases h with h | ⟨s, hs, he⟩
  · exact ⟨[], cs, rfl, by simp [h]⟩
  · simp only [report, List.mem_map] at hs
    obtain ⟨x, hx, rfl⟩ := hs
    simp only at he
    suffices H : ∀ o, x ∈ place o cs → ∃ a c, cs = a ++ c ∧ o + a.flatten.length = x.1 + x.2.length by
      obtain ⟨a, c, h1, h2⟩ := H 0 hx
      exact ⟨a, c, h1, by omega⟩
    clear hx he
    induction cs with
    | nil => simp [place]
    | cons c cs ih =>
      intro o hx
      simp only [place, List.mem_cons] at hx
      rcases hx with hx | hx
      · exact ⟨[c], cs, rfl, by simp [hx]⟩
      · obtain ⟨a, r, h1, h2⟩ := ih _ hx
        exact ⟨c :: a, r, by simp [h1], by rw [List.flatten_cons, List.length_append]; omega⟩

theorem after_report (H : Bytes → Id) (a c : List Bytes) (hne : ∀ x ∈ a, x ≠ []) :
    after a.flatten.length (report H (a ++ c)) = report H c := by
  unfold after report
  rw [place_append, List.map_append, List.filter_append, Nat.zero_add]
  have e1 : (List.map (fun x => (⟨x.1, x.2.length, H x.2⟩ : Seg)) (place 0 a)).filter
      (fun s => a.flatten.length ≤ s.off) = [] := by
    rw [List.filter_eq_nil_iff]
    intro s hs
    simp only [List.mem_map] at hs
    obtain ⟨x, hx, rfl⟩ := hs
    have := place_off_lt 0 a hne x hx
    simp only [decide_eq_true_eq]; omega
  have e2 : (List.map (fun x => (⟨x.1, x.2.length, H x.2⟩ : Seg)) (place a.flatten.length c)).filter
      (fun s => a.flatten.length ≤ s.off) = List.map (fun x => (⟨x.1, x.2.length, H x.2⟩ : Seg)) (place a.flatten.length c) := by
    rw [List.filter_eq_self]
    intro s hs
    simp only [List.mem_map] at hs
    obtain ⟨x, hx, rfl⟩ := hs
    have := place_off_ge a.flatten.length c x hx
    simpa using this
  rw [e1, e2, List.nil_append, ← place_shift a.flatten.length c]
  simp [List.map_map, Function.comp_def]

/-- **C05**: if `a ++ t` and `b ++ t` both have a chunk boundary where `t` starts, the chunks
behind it are the same. -/
theorem C05_resynchronisation (H : Bytes → Id) {disc bufsiz p d}
    (env : ScanEnv disc bufsiz p d) (a b t : Bytes) (s1 s2 : List Sys)
    (hz1 : Sys.zero ∉ s1.tail) (hz2 : Sys.zero ∉ s2.tail)
    (ok1 : (scan H disc bufsiz p (a ++ t) s1).1 = .ok)
    (ok2 : (scan H disc bufsiz p (b ++ t) s2).1 = .ok)
    (b1 : Boundary (scan H disc bufsiz p (a ++ t) s1).2 a.length)
    (b2 : Boundary (scan H disc bufsiz p (b ++ t) s2).2 b.length) :
    after a.length (scan H disc bufsiz p (a ++ t) s1).2
      = after b.length (scan H disc bufsiz p (b ++ t) s2).2 := by
  obtain ⟨c1, h1, e1⟩ := C01_scan_reports_spec_chunks H env _ s1 hz1 ok1
  obtain ⟨c2, h2, e2⟩ := C01_scan_reports_spec_chunks H env _ s2 hz2 ok2
  rw [e1] at b1 ⊢
  rw [e2] at b2 ⊢
  obtain ⟨x1, y1, rfl, l1⟩ := boundary_split H c1 _ b1
  obtain ⟨x2, y2, rfl, l2⟩ := boundary_split H c2 _ b2
  have g1 := chunking_split h1
  have g2 := chunking_split h2
  rw [l1, List.drop_left] at g1
  rw [l2, List.drop_left] at g2
  rw [← l1, ← l2, after_report, after_report, chunking_unique g1 g2]
  · exact fun x hx => chunking_nonempty h2 x (by simp [hx])
  · exact fun x hx => chunking_nonempty h1 x (by simp [hx])

/-! ### C06 -/

/-- **C06**, with the missing case as hypothesis: if the discriminator is positive, a scan never
shows undefined behaviour, never trips an assertion and never diverges. -/
theorem C06_scan_defined_partial (H : Bytes → Id) {disc bufsiz p d}
    (env : ScanEnv disc bufsiz p d) (f : Bytes) (sys : List Sys) :
    (scan H disc bufsiz p f sys).1 = .ok ∨ (scan H disc bufsiz p f sys).1 = .fail ∨
      (scan H disc bufsiz p f sys).1 = .stop .killed := by
  obtain ⟨e, cs, k, h1, h2, h3, h4, h5⟩ := scan_outcome H env f sys
  rcases h5 with h | h | h
  · exact Or.inl h.1
  · exact Or.inr (Or.inl h.1)
  · exact Or.inr (Or.inr h)

/-- **C06**: the (exact) discriminator formula gives a usable value exactly for average sizes
between 2 and 9324556. -/
theorem C06_discriminator_range (avg : Nat) :
    (∃ d, discExact avg = some d ∧ 0 < d) ↔ 2 ≤ avg ∧ avg ≤ 9324556 := by
  unfold discExact
  constructor
  · rintro ⟨d, h, hd⟩
    split at h
    · next hlt =>
      injection h with h
      subst h
      refine ⟨?_, by omega⟩
      have := Nat.div_pos_iff.1 hd
      omega
    · cases h
  · rintro ⟨h1, h2⟩
    rw [if_pos (by omega)]
    refine ⟨_, rfl, ?_⟩
    apply Nat.div_pos <;> omega

/-- **C06** refuted: parameters (0, 1, 100) are accepted by the index loader but scanning any
file of at least 48 bytes that starts with 48 zero bytes divides by zero. -/
theorem C06_refuted_division_by_zero :
    paramsSet 0 1 100 = some ⟨0, 1, 100⟩ ∧
    ∀ H : Bytes → Id,
      (scan H discExact 8192 ⟨0, 1, 100⟩ (List.replicate 48 0) [.some 0, .some 47]).1 = .stop .ub := by
  refine ⟨by decide, fun H => ?_⟩
  have h0 : discExact 1 = some 0 := by decide
  have h1 : chunkerScan ⟨0, 1, 100⟩ 0 Chunker.init (List.replicate 48 0) = .stop .ub := by
    decide +kernel
  have h2 : ((List.replicate 48 (0 : UInt8)).drop 0).take (min (47 + 1) 8192) = List.replicate 48 0 := by
    decide
  simp only [scan, scanFd, h0, scanLoop, h2]
  rw [if_neg (by decide), show (List.replicate 48 (0 : UInt8)).length = 47 + 1 from rfl]
  simp only [scanBuf, h1]
  rw [if_neg (by decide)]

/-- **C06** refuted: for accepted parameters with a large average size the conversion of the
discriminator is undefined, whatever the file. -/
theorem C06_refuted_float_conversion :
    paramsSet 16384 9324557 33554432 = some ⟨16384, 9324557, 33554432⟩ ∧
    ∀ (H : Bytes → Id) (f : Bytes) (sys : List Sys),
      (scan H discExact 8192 ⟨16384, 9324557, 33554432⟩ f sys).1 = .stop .ub := by
  refine ⟨by decide, fun H f sys => ?_⟩
  have h0 : discExact 9324557 = none := by decide
  simp only [scan, scanFd, h0]

/-! ### Concrete cases -/

/-- The default discriminator is the one of casync (chunker.c:118). -/
theorem C06_default_discriminator : discExact 65536 = some 0xc17f := by decide

def exP : Params := ⟨10, 20, 50⟩
def exFile : Bytes := (List.range 60).map (fun i => UInt8.ofNat (i * i))
def exH (b : Bytes) : Id := [UInt8.ofNat (b.foldl (fun a x => a + x.toNat) 0)]

example : ScanEnv discExact 8192 exP 15 := ⟨by decide, by decide, by decide, by decide, by decide⟩

/-- A scan with short and interrupted reads that finds two chunks. -/
example : (scan exH discExact 8192 exP exFile
    [.some 0, .some 9, .eintr, .some 43, .some 200, .some 0]).2.map (fun s => (s.off, s.len))
    = [(0, 50), (50, 10)] := by decide +kernel

/-- Data with a cut found by the hash, before the maximum size is reached. -/
def exB : Bytes := (List.range 48).map (fun i => UInt8.ofNat (i * 32 + 3))
def exT : Bytes := [1, 2, 3, 4, 5]

/-- Two different prefixes (50 and 48 bytes) before the same data, both ending at a chunk
boundary: the hypotheses of `C05_resynchronisation` hold. -/
example :
    (scan exH discExact 8192 exP (exFile.take 50 ++ exT) [.some 0, .some 63, .some 0]).1 = .ok ∧
    (scan exH discExact 8192 exP (exB ++ exT) [.some 0, .some 40, .some 63, .some 0]).1 = .ok ∧
    (scan exH discExact 8192 exP (exFile.take 50 ++ exT) [.some 0, .some 63, .some 0]).2.map
      (fun s => (s.off, s.len)) = [(0, 50), (50, 5)] ∧
    (scan exH discExact 8192 exP (exB ++ exT) [.some 0, .some 40, .some 63, .some 0]).2.map
      (fun s => (s.off, s.len)) = [(0, 48), (48, 5)] := by decide +kernel

end Csn.Props
