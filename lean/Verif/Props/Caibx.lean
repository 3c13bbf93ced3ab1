import Verif.Proof.CaibxEnc
/-
C07 .. C10: reading index files.
-/
namespace Csn.Props
open Csn Spec Proof

/-! ### C07 -/

/-- **C07**: whatever the index loader accepts is a well-formed index, and the reported sizes
and number of entries are those of the file; loading changes no file. -/
theorem C07_accepted_is_wellformed (ino : Nat) (w w' : World) (p : Params) (n : Nat)
    (h : caibxLoadHeader ino w = (.ok (some (p, n)), w')) :
    WellFormed (w.data ino) p.min p.avg p.max n ∧ w'.data = w.data ∧ w'.log = w.log := by
  have : wp (caibxLoadHeader ino) (fun r w' => ∀ p n, r = some (p, n) →
      WellFormed (w.data ino) p.min p.avg p.max n ∧ w'.data = w.data ∧ w'.log = w.log)
      (fun _ _ => True) w := by
    apply wp_caibxLoadHeader
    · intro r p n _ _ hw p' n' e
      injection e with e
      injection e with e1 e2
      subst e1 e2
      exact ⟨hw, rfl, rfl⟩
    · intro r _ _ p n e; cases e
    · intro _; trivial
  exact wp_ok this h p n rfl

/-- **C07**: a well-formed index (regular file or block device) is accepted for every way the
reads may be split or interrupted, and its sizes and number of entries are reported. -/
theorem C07_wellformed_is_accepted (ino : Nat) (w : World) (mi av ma n : Nat)
    (hwf : WellFormed (w.data ino) mi av ma n) (hk : w.kind ino ≠ .other)
    (hsize : (w.data ino).length < 2 ^ 63) (he : Sys.err ∉ w.sys) (hz : Sys.zero ∉ w.sys)
    (hmany : 107 ≤ okCalls w.sys) :
    ∃ w', caibxLoadHeader ino w = (.ok (some (⟨mi, av, ma⟩, n)), w') := by
  have : wp (caibxLoadHeader ino) (fun r _ => r = some (⟨mi, av, ma⟩, n)) (fun _ _ => False) w := by
    apply wp_caibxLoadHeader
    · intro r p m _ _ hw
      have e1 := hw.sizes
      have e2 := hwf.sizes
      have e3 := hw.size
      have e4 := hwf.size
      have hn : m = n := by omega
      cases p
      simp only at e1
      rw [← e1.1, ← e1.2.1, ← e1.2.2, e2.1, e2.2.1, e2.2.2, hn]
    · intro r _ hc
      rcases hc with hc | hc | hc | hc
      · exact absurd ⟨he, hz⟩ hc
      · exact absurd hc hk
      · omega
      · exact absurd hwf (hc _ _ _ _)
    · intro h; omega
  unfold wp at this
  split at this
  · next a w' h => exact ⟨w', by rw [h, this]⟩
  · exact absurd this (by simp)

/-- **C07**: a malformed index is never accepted, under any schedule; without system call
failures the loader reports the error. -/
theorem C07_malformed_is_rejected (ino : Nat) (w : World)
    (hbad : ∀ mi av ma n, ¬ WellFormed (w.data ino) mi av ma n) :
    (∀ p n w', caibxLoadHeader ino w ≠ (.ok (some (p, n)), w')) ∧
    (107 ≤ okCalls w.sys → ∃ w', caibxLoadHeader ino w = (.ok none, w')) := by
  refine ⟨fun p n w' h => hbad _ _ _ _ (C07_accepted_is_wellformed ino w w' p n h).1, fun hmany => ?_⟩
  have : wp (caibxLoadHeader ino) (fun r _ => r = none) (fun _ _ => False) w := by
    apply wp_caibxLoadHeader
    · intro r p m _ _ hw; exact absurd hw (hbad _ _ _ _)
    · intros; rfl
    · intro h; omega
  unfold wp at this
  split at this
  · next a w' h => exact ⟨w', by rw [h, this]⟩
  · exact absurd this (by simp)

/-! ### C08 -/

/-- A consumer that records what it receives. -/
def collectM (l : List Seg) (s : Seg) : M (Bool × List Seg) := M.pure (true, l ++ [s])

/-- Chunks with their offsets: each starts at the sum of the earlier lengths. -/
def placed : Nat → List (Nat × Id) → List (Nat × Nat × Id)
  | _, [] => []
  | o, (len, id) :: r => (o, len, id) :: placed (o + len) r

theorem consecutive_ends (o : Nat) (cs : List (Nat × Id)) : consecutive o (ends o cs) = placed o cs := by
  induction cs generalizing o with
  | nil => rfl
  | cons c cs ih =>
    obtain ⟨l, i⟩ := c
    simp only [ends, consecutive, placed, ih]
    rw [show o + l - o = l by omega]

/-- Iterating a well-formed, ascending index with the recording consumer. -/
theorem collect_ascending (ino n : Nat) (p : Params) (w : World)
    (hlen : (w.data ino).length = 104 + 40 * n) (hsize : (w.data ino).length < 2 ^ 63)
    (hmin : p.min < 2 ^ 32) (hmax : p.max < 2 ^ 32)
    (hasc : Ascending 0 (tableEntries (w.data ino) n)) (hc : Clean w.sys)
    (hmany : 1 + 40 * n ≤ okCalls w.sys) :
    ∃ l w', caibxIterate ino p n collectM [] w = (.ok (true, l), w') ∧
      l.map (fun s => (s.off, s.len, s.id)) = consecutive 0 (tableEntries (w.data ino) n) := by
  have key : wp (caibxIterate ino p n collectM [])
      (fun r _ => r = (true, delivered 0 (tableEntries (w.data ino) n))) (fun _ _ => False) w := by
    refine wp_caibxIterate (w.data ino) n hlen hmin hmax
      (fun k done s w' => w'.data ino = w.data ino ∧ s = done ∧ Clean w'.sys ∧ 40 * (n - k) ≤ okCalls w'.sys)
      (fun k done s w' => w'.data ino = w.data ino ∧ s = done ∧ Clean w'.sys ∧ 40 * (n - (k + 1)) ≤ okCalls w'.sys)
      _ _ (fun k done s w' h => h.1) ?_ (fun k done s w' h => h) ?_ ?_ ?_ ?_ [] w ?_ ?_ ?_
    · intro k done s w' r hk h hr
      have := hr.2
      have := h.2.2.2
      exact ⟨h.1, h.2.1, h.2.2.1.spent hr, by simp only; omega⟩
    · intro k done s w' r hk h _ hcc
      rcases hcc with hcc | hcc
      · exact absurd h.2.2.1 hcc
      · omega
    · intro k done s w' hk h h40
      have := h.2.2.2
      omega
    · intro k done seg rest s w' hk hd h
      refine wp_mpure ?_
      simp only [if_true]
      exact ⟨h.1, by rw [h.2.1], h.2.2.1, h.2.2.2⟩
    · intro s w' h; rw [h.2.1]
    · intro r _ h; exact absurd hc h
    · intro h; omega
    · intro r hr
      have := hr.2
      exact ⟨rfl, rfl, hc.spent hr, by simp only; omega⟩
  rw [delivered_ascending 0 _ hasc (tableEntries_lt _ _)] at key
  unfold wp at key
  split at key
  · next a w' h =>
    refine ⟨_, w', by rw [h, key], ?_⟩
    rw [List.map_map]
    simp [Function.comp_def]
  · exact absurd key (by simp)

/-- **C08**: an index written in the casync layout is read back: the loader reports the sizes and
the number of chunks, and iterating hands over exactly the chunks, in order, each at the sum of
the earlier lengths - for every way the reads may be split or interrupted. -/
theorem C08_index_round_trip (ino : Nat) (mi av ma : Nat) (cs : List (Nat × Id))
    (henc : Encodable mi av ma cs) (w : World) (hd : w.data ino = encode mi av ma cs)
    (hk : w.kind ino ≠ .other) (hsize : 104 + 40 * cs.length < 2 ^ 63)
    (he : Sys.err ∉ w.sys) (hz : Sys.zero ∉ w.sys) (hmany : 108 + 40 * cs.length ≤ okCalls w.sys) :
    ∃ w1 w2 l, caibxLoadHeader ino w = (.ok (some (⟨mi, av, ma⟩, cs.length)), w1) ∧
      caibxIterate ino ⟨mi, av, ma⟩ cs.length collectM [] w1 = (.ok (true, l), w2) ∧
      l.map (fun s => (s.off, s.len, s.id)) = placed 0 cs := by
  have hwf := encode_wellFormed henc
  have hlen := encode_length mi av ma cs henc.ids
  rw [← hd] at hwf hlen
  have key : wp (caibxLoadHeader ino) (fun r w' => r = some (⟨mi, av, ma⟩, cs.length) ∧ w'.data = w.data ∧
      Clean w'.sys ∧ 1 + 40 * cs.length ≤ okCalls w'.sys) (fun _ _ => False) w := by
    apply wp_caibxLoadHeader
    · intro r p m hr _ hw
      have e1 := hw.sizes
      have e2 := hwf.sizes
      have e3 := hw.size
      have hn : m = cs.length := by omega
      have := hr.2
      refine ⟨?_, rfl, Clean.spent ⟨he, hz⟩ hr, by simp only; omega⟩
      cases p
      simp only at e1
      rw [← e1.1, ← e1.2.1, ← e1.2.2, e2.1, e2.2.1, e2.2.2, hn]
    · intro r _ hc
      rcases hc with hc | hc | hc | hc
      · exact absurd ⟨he, hz⟩ hc
      · exact absurd hc hk
      · omega
      · exact absurd hwf (hc _ _ _ _)
    · intro h; omega
  unfold wp at key
  split at key
  · next a w1 h =>
    obtain ⟨k1, k2, k3, k4⟩ := key
    have hs := henc.sizes
    obtain ⟨l, w2, g1, g2⟩ := collect_ascending ino cs.length ⟨mi, av, ma⟩ w1 (by rw [k2]; exact hlen)
      (by rw [k2]; omega) (by simp only; omega) (by simp only; omega)
      (by rw [k2, hd, encode_entries henc]; exact ascending_ends 0 cs (fun c hc => (henc.lens c hc).2)) k3 k4
    refine ⟨w1, w2, l, by rw [h, k1], g1, ?_⟩
    rw [g2, k2, hd, encode_entries henc, consecutive_ends]
  · exact absurd key (by simp)

/-! ### C09 -/

/-- Any consumer, with a record of what it is handed. -/
def recording {σ : Type} (cb : σ → Seg → M (Bool × σ)) (s : σ × List Seg) (x : Seg) : M (Bool × (σ × List Seg)) := do
  let r ← cb s.1 x
  return (r.1, (r.2, s.2 ++ [x]))

/-- What a successful iteration has handed over, for any consumer that leaves the index file
alone: every entry that is not skipped, in order (used by the next theorem). -/
theorem iterate_hands_over {σ : Type} (ino n : Nat) (p : Params) (cb : σ → Seg → M (Bool × σ)) (s : σ) (w : World)
    (hlen : (w.data ino).length = 104 + 40 * n) (hmin : p.min < 2 ^ 32) (hmax : p.max < 2 ^ 32)
    (hcb : ∀ s x w, (cb s x w).2.data ino = w.data ino) (s' : σ) (l : List Seg) (w' : World)
    (h : caibxIterate ino p n (recording cb) (s, []) w = (.ok (true, (s', l)), w')) :
    l = delivered 0 (tableEntries (w.data ino) n) := by
  have key : wp (caibxIterate ino p n (recording cb) (s, []))
      (fun r _ => r.1 = true → r.2.2 = delivered 0 (tableEntries (w.data ino) n)) (fun _ _ => True) w := by
    refine wp_caibxIterate (w.data ino) n hlen hmin hmax
      (fun k done s w' => w'.data ino = w.data ino ∧ s.2 = done)
      (fun k done s w' => w'.data ino = w.data ino ∧ s.2 = done)
      _ _ (fun k done s w' h => h.1) (fun k done s w' r _ h _ => h) (fun k done s w' h => h)
      (fun k done s w' r _ _ _ _ => by simp) (fun k done s w' _ _ _ => trivial) ?_ ?_ (s, []) w
      (fun r _ _ => by simp) (fun _ => trivial) (fun r _ => ⟨rfl, rfl⟩)
    · intro k done seg rest s w1 _ _ hJ
      unfold recording
      refine wp_bind ?_
      unfold wp
      split
      · next a w2 e =>
        show (if a.1 = true then _ else _)
        have := hcb s.1 seg w1
        rw [e] at this
        split
        · exact ⟨by rw [this]; exact hJ.1, by simp [hJ.2]⟩
        · next hb => intro h; exact absurd h hb
      · trivial
    · intro s w1 hI _; exact hI.2
  exact wp_ok key h rfl

/-- **C09 (partial)**: if the end offsets in the table ascend and no entry is 4 GiB or longer, a
successful iteration hands every entry to the consumer exactly once, in file order, with offset
equal to the previous end and length equal to the difference.  Missing from the full statement:
tables with other entries, for which it is false (`C09_refuted`). -/
theorem C09_every_entry_delivered_partial {σ : Type} (ino n : Nat) (mi av ma : Nat)
    (cb : σ → Seg → M (Bool × σ)) (s : σ) (w : World)
    (hwf : WellFormed (w.data ino) mi av ma n)
    (hasc : Ascending 0 (tableEntries (w.data ino) n))
    (hcb : ∀ s x w, (cb s x w).2.data ino = w.data ino) (s' : σ) (l : List Seg) (w' : World)
    (h : caibxIterate ino ⟨mi, av, ma⟩ n (recording cb) (s, []) w = (.ok (true, (s', l)), w')) :
    l.map (fun s => (s.off, s.len, s.id)) = consecutive 0 (tableEntries (w.data ino) n) := by
  have hm := hwf.mono
  have := iterate_hands_over ino n ⟨mi, av, ma⟩ cb s w hwf.size (by simp only; omega) (by simp only; omega)
    hcb s' l w' h
  rw [this, delivered_ascending 0 _ hasc (tableEntries_lt _ _), List.map_map]
  simp [Function.comp_def]

/-- An index of three entries whose end offsets are 100, 40 and 130. -/
def descending : Bytes :=
  toLe 8 48 ++ toLe 8 0x96824d9c7b129ff9 ++ toLe 8 0xd000000000000000 ++
  toLe 8 16 ++ toLe 8 64 ++ toLe 8 256 ++ toLe 8 (2 ^ 64 - 1) ++ toLe 8 0xe75b9e112f17417d ++
  (toLe 8 100 ++ List.replicate 32 1) ++ (toLe 8 40 ++ List.replicate 32 2) ++ (toLe 8 130 ++ List.replicate 32 3) ++
  toLe 8 0 ++ toLe 8 0 ++ toLe 8 48 ++ toLe 8 176 ++ toLe 8 0x4b4f050e5549ecd1

/-- A world whose inode 5 is a given index file. -/
def indexWorld (f : Bytes) (sys : List Sys) : World :=
  { data := fun i => if i = 5 then f else [], kind := fun _ => .reg, dir := fun _ => none, next := 6,
    sys := sys, mem := [], net := [], log := [] }

theorem eq_pair_of_fst {α β : Type} {a : α × β} {x : α} (h : a.1 = x) : a = (x, a.2) := by
  subst h; rfl

/-- **C09 refuted in full**: the loader accepts this index of three entries, the iteration reports
success, but the consumer is handed only two of them. -/
theorem C09_refuted :
    ∃ w : World, (caibxLoadHeader 5 w).1 = .ok (some (⟨16, 64, 256⟩, 3)) ∧
      ∃ l w', caibxIterate 5 ⟨16, 64, 256⟩ 3 collectM [] (caibxLoadHeader 5 w).2 = (.ok (true, l), w') ∧
        l.map (fun s => (s.off, s.len)) = [(0, 100), (100, 30)] := by
  refine ⟨indexWorld descending (List.replicate 11 (.some 60)), by decide +kernel, ?_⟩
  have h : (caibxIterate 5 ⟨16, 64, 256⟩ 3 collectM []
      (caibxLoadHeader 5 (indexWorld descending (List.replicate 11 (.some 60)))).2).1 =
      .ok (true, [⟨0, 100, List.replicate 32 1⟩, ⟨100, 30, List.replicate 32 3⟩]) := by decide +kernel
  exact ⟨_, _, eq_pair_of_fst h, by decide⟩

/-! ### C10 -/

/-- **C10**: loading an arbitrary byte string as index always ends, and the only way it does not
end by itself is that the process is killed: no assertion, no undefined behaviour. -/
theorem C10_loading_is_safe (ino : Nat) (w w' : World) (s : Stop)
    (h : caibxLoadHeader ino w = (.stop s, w')) : s = .killed ∧ w'.sys = [] ∧ w'.data = w.data := by
  have : wp (caibxLoadHeader ino) (fun _ _ => True)
      (fun s w' => s = .killed ∧ w'.sys = [] ∧ w'.data = w.data) w := by
    apply wp_caibxLoadHeader
    · intros; trivial
    · intros; trivial
    · intro _; exact ⟨rfl, rfl, rfl⟩
  exact wp_stopped this h

/-- A tail recursion helper: iterating stops only where the consumer stops or by a kill; this needs
no assumption on the file or the parameters. -/
theorem iterLoop_stops {σ : Type} (ino : Nat) (p : Params) (cb : σ → Seg → M (Bool × σ)) (P : Stop → Prop)
    (hP : P .killed) (hcb : ∀ s x w st w', cb s x w = (.stop st, w') → P st) :
    ∀ (rem pos last : Nat) (s : σ) (w : World),
      wp (iterLoop ino p cb rem pos last s) (fun _ _ => True) (fun st _ => P st) w := by
  intro rem
  induction rem with
  | zero => intro pos last s w; exact wp_mpure trivial
  | succ rem ih =>
    intro pos last s w
    simp only [iterLoop]
    refine wp_bind (wp_readall ?_ ?_ (fun _ => hP))
    · intro r _ hl _
      refine wp_bind (wp_ld64le (by omega) (wp_bind (wp_ldBytes (by omega) ?_)))
      split
      · exact ih _ _ _ _
      · refine wp_bind ?_
        unfold wp
        split
        · next a w' _ =>
          obtain ⟨b, s'⟩ := a
          cases b with
          | false => trivial
          | true => exact ih _ _ _ _
        · next st w' e => exact hcb _ _ _ _ _ e
    · intro r n _ _ _
      exact wp_pure trivial

/-- **C10**: iterating over an arbitrary byte string with an arbitrary number of entries and
arbitrary parameters always ends and never performs undefined behaviour or trips an assertion,
unless the consumer does. -/
theorem C10_iterating_is_safe {σ : Type} (ino : Nat) (p : Params) (n : Nat) (cb : σ → Seg → M (Bool × σ))
    (hcb : ∀ s x w st w', cb s x w = (.stop st, w') → st = .killed) (s : σ) (w w' : World) (st : Stop)
    (h : caibxIterate ino p n cb s w = (.stop st, w')) : st = .killed := by
  have : wp (caibxIterate ino p n cb s) (fun _ _ => True) (fun st _ => st = .killed) w := by
    unfold caibxIterate
    refine wp_bind (wp_lseek ?_ ?_ (fun _ => rfl))
    · intro r _ _
      exact iterLoop_stops ino p cb (· = .killed) rfl hcb _ _ _ _ _
    · intro r _ _
      exact wp_pure trivial
  exact wp_stopped this h

/-! ### Concrete cases -/

/-- Two chunks of 100 and 7 bytes. -/
def exChunks : List (Nat × Id) := [(100, List.replicate 32 1), (7, List.replicate 32 2)]

example : Encodable 16 64 256 exChunks :=
  ⟨by decide, by decide, by decide, by decide, by decide⟩

example : WellFormed (encode 16 64 256 exChunks) 16 64 256 2 :=
  encode_wellFormed ⟨by decide, by decide, by decide, by decide, by decide⟩

/-- Loading the encoded index with short and interrupted reads. -/
example : (caibxLoadHeader 5 (indexWorld (encode 16 64 256 exChunks)
    ([.some 0, .some 0, .some 6, .eintr] ++ List.replicate 5 (.some 50)))).1 =
    .ok (some (⟨16, 64, 256⟩, 2)) := by decide +kernel

/-- Iterating over it. -/
example : (caibxIterate 5 ⟨16, 64, 256⟩ 2 collectM [] (indexWorld (encode 16 64 256 exChunks)
    ([.some 0, .some 0, .some 6, .eintr] ++ List.replicate 5 (.some 50)))).1 =
    .ok (true, [⟨0, 100, List.replicate 32 1⟩, ⟨100, 7, List.replicate 32 2⟩]) := by decide +kernel

/-- A file that is one byte short is rejected. -/
example : (caibxLoadHeader 5 (indexWorld ((encode 16 64 256 exChunks).take 183)
    (List.replicate 9 (.some 50)))).1 = .ok none := by decide +kernel

end Csn.Props
