import Verif.Proof.Local
/-
Outcomes of store_local_get_chunk.
-/
namespace Csn.Proof
open Csn Spec Props

/-- Only schedules and log have moved on; the new log entries are `evs`. -/
structure Quiet (w w' : World) (evs : List Event) : Prop where
  data : w'.data = w.data
  kind : w'.kind = w.kind
  dir : w'.dir = w.dir
  next : w'.next = w.next
  net : w'.net = w.net
  sys : w'.sys <:+ w.sys
  mem : w'.mem <:+ w.mem
  log : w'.log = w.log ++ evs

theorem Quiet.refl (w : World) : Quiet w w [] :=
  ⟨rfl, rfl, rfl, rfl, rfl, List.suffix_refl _, List.suffix_refl _, by simp⟩

theorem Quiet.trans {a b c : World} {e e' : List Event} (h : Quiet a b e) (h' : Quiet b c e') :
    Quiet a c (e ++ e') :=
  ⟨h'.data.trans h.data, h'.kind.trans h.kind, h'.dir.trans h.dir, h'.next.trans h.next, h'.net.trans h.net,
    h'.sys.trans h.sys, h'.mem.trans h.mem, by rw [h'.log, h.log, List.append_assoc]⟩

theorem Quiet.ofSys {w : World} {r : List Sys} (h : r <:+ w.sys) : Quiet w { w with sys := r } [] :=
  ⟨rfl, rfl, rfl, rfl, rfl, h, List.suffix_refl _, by simp⟩

theorem Quiet.ofScan {w : World} {r : List Sys} {m : List Bool} {e : Event} (h : r <:+ w.sys) (hm : m <:+ w.mem) :
    Quiet w { w with sys := r, mem := m, log := w.log ++ [e] } [e] :=
  ⟨rfl, rfl, rfl, rfl, rfl, h, hm, rfl⟩

/-- An index entry describes the file `f`, as far as it claims to have been validated. -/
def EntryOk (H : Bytes → Id) (f : Bytes) (e : Entry) : Prop :=
  e.len ≠ 0 ∧ (e.valid = true → (slice f e.start e.len).length = e.len ∧ H (slice f e.start e.len) = e.id)

/-- A usable local store over a file with contents `f`. -/
def LocLive (env : LEnv) (f : Bytes) (l : Loc) : Prop :=
  ∃ idx, l.idx = .live idx ∧ IndexInv idx ∧ ∀ e ∈ idx.entries, EntryOk env.H f e

/-- A usable local store holding exactly what scanning `f` finds. -/
def LocScanned (env : LEnv) (d : Nat) (f : Bytes) (l : Loc) : Prop :=
  ∃ idx cs, l.idx = .live idx ∧ IndexInv idx ∧ Chunking l.p.min l.p.max d f cs ∧
    idx.entries.Perm (scanEntries env cs)

theorem scanEntries_ok (env : LEnv) {mi ma d : Nat} {f : Bytes} {cs : List Bytes} {n : Nat}
    (h : Chunking mi ma d (f.take n) cs) :
    ∀ e ∈ scanEntries env cs, EntryOk env.H f e ∧ e.valid = true ∧ slice f e.start e.len ∈ cs := by
  intro e he
  unfold scanEntries at he
  obtain ⟨s, hs, rfl⟩ := List.mem_map.1 he
  have := segs_describe env.H cs (chunking_nonempty h) 0 f ⟨f.drop n, by
    rw [chunking_flatten h, List.take_append_drop]; simp⟩ s hs
  exact ⟨⟨this.1, fun _ => ⟨this.2.1, this.2.2.1⟩⟩, rfl, this.2.2.2⟩

theorem LocScanned.live {env : LEnv} {d : Nat} {f : Bytes} {l : Loc} (h : LocScanned env d f l) :
    LocLive env f l := by
  obtain ⟨idx, cs, h1, h2, h3, h4⟩ := h
  refine ⟨idx, h1, h2, fun e he => ?_⟩
  exact (scanEntries_ok env (n := f.length) (by rw [List.take_length]; exact h3) e (h4.mem_iff.1 he)).1

theorem bufWrite0_length {buf d : Bytes} (h : d.length ≤ buf.length) : (bufWrite buf 0 d).length = buf.length := by
  unfold bufWrite; simp; omega

theorem bufWrite0_take {buf d : Bytes} : (bufWrite buf 0 d).take d.length = d := by
  unfold bufWrite; simp

theorem slice_length_le (f : Bytes) (o n : Nat) : (slice f o n).length ≤ n := by
  unfold slice; simp; omega

/-- Soundness-relevant facts about a result of store_local_get_chunk. -/
structure LocRes (env : LEnv) (f : Bytes) (l : Loc) (id : Id) (out : Bytes)
    (res : Option Nat × Loc × Bytes) : Prop where
  ino : res.2.1.ino = l.ino
  par : res.2.1.p = l.p
  len : res.2.2.length = out.length
  live : ∀ n, res.1 = some n → LocLive env f res.2.1 ∧ n ≤ out.length ∧
    (0 < n → env.H (res.2.2.take n) = id ∧ ∃ o, res.2.2.take n = slice f o n)

/-- A store whose entries are all validated answers without rescanning. -/
theorem wp_localGet_valid {env : LEnv} (hlib : env.lib.Conforms) {l : Loc} {idx : Index} {f : Bytes}
    (hl : l.idx = .live idx) (hi : IndexInv idx)
    (hv : ∀ e ∈ idx.entries, EntryOk env.H f e ∧ e.valid = true) {fuel : Nat} {id : Id} {out : Bytes}
    {w : World} (hf : w.data l.ino = f) {Q : Option Nat × Loc × Bytes → World → Prop} {S : Stop → World → Prop}
    (hmiss : ∀ idx', IndexInv idx' → idx'.entries.Perm idx.entries → (∀ e ∈ idx.entries, e.id ≠ id) →
      Q (some 0, { l with idx := .live idx' }, out) w)
    (hhit : ∀ idx' e r, IndexInv idx' → idx'.entries.Perm idx.entries → e ∈ idx.entries → e.id = id →
      0 < e.len → e.len ≤ out.length → Spent w.sys r e.len → (slice f e.start e.len).length = e.len →
      env.H (slice f e.start e.len) = id →
      Q (some e.len, { l with idx := .live idx' }, bufWrite out 0 (slice f e.start e.len)) { w with sys := r })
    (hfail : ∀ idx' e r k, IndexInv idx' → idx'.entries.Perm idx.entries → e ∈ idx.entries → e.id = id →
      r <:+ w.sys → k ≤ out.length →
      (¬ Clean w.sys ∨ out.length < e.len ∨ 2 ^ 63 ≤ f.length) →
      Q (none, { l with idx := .live idx' }, bufWrite out 0 (slice f e.start k)) { w with sys := r })
    (hkill : ∀ e, e ∈ idx.entries → e.id = id → e.len ≤ out.length → okCalls w.sys < e.len →
      S .killed { w with sys := [] }) :
    wp (localGet env (fuel + 1) l id out) Q S w := by
  apply wp_localPass hlib hl hi
  · exact hmiss
  · intro idx' e h1 h2 h3 h4 h5
    have := hfail idx' e w.sys 0 h1 h2 h3 h4 (List.suffix_refl _) (by omega) (Or.inr (Or.inl h5))
    have e0 : bufWrite out 0 (slice f e.start 0) = out := by simp [bufWrite, slice]
    rw [e0] at this
    exact this
  · intro idx' e r k h1 h2 h3 h4 h5 h6 hk h7
    rw [hf] at h7 ⊢
    have hc : (¬ Clean w.sys ∨ out.length < e.len ∨ 2 ^ 63 ≤ f.length) := by
      have hs := ((hv e h3).1.2 (hv e h3).2).1
      have hs0 := (hv e h3).1.1
      unfold slice at hs
      simp at hs
      rcases h7 with h | h | h
      · exact Or.inl h
      · omega
      · omega
    exact hfail idx' e r k h1 h2 h3 h4 h6.1 (by omega) hc
  · intro idx' e r h1 h2 h3 h4 h5 h6 h7 h8
    rw [hf] at h7 ⊢
    have := (hv e h3).1
    exact hhit idx' e r h1 h2 h3 h4 (by have := this.1; omega) h5 h6 h7 (by rw [(this.2 h8).2, h4])
  · intro idx' e r i _ h1 h2 h3 h4 h5 h6 h7 h8 h9 h10
    rw [(hv e h3).2] at h10; cases h10
  · intro e r h1 h2 h3
    rw [(hv e h1).2] at h3; cases h3
  · exact hkill

theorem modify_mem {l : List Entry} {i : Nat} {e x : Entry} {g : Entry → Entry} (h : l[i]? = some e)
    (hx : x ∈ l.modify i g) : x = g e ∨ x ∈ l := by
  rw [List.mem_iff_getElem?] at hx
  obtain ⟨j, hj⟩ := hx
  rw [List.getElem?_modify] at hj
  by_cases hij : i = j
  · subst hij
    rw [h] at hj
    simp at hj
    exact Or.inl hj.symm
  · simp [hij] at hj
    exact Or.inr (List.mem_of_getElem? hj)

/-- Every entry of the store's index has been validated. -/
def AllValid (l : Loc) : Prop := ∃ idx, l.idx = .live idx ∧ ∀ e ∈ idx.entries, e.valid = true

/-- Everything soundness needs about one lookup in a local store. -/
theorem wp_localGet {env : LEnv} (hlib : env.lib.Conforms) {l : Loc} {d : Nat}
    (he : ScanEnv env.disc env.bufsiz l.p d) {f : Bytes} (hl : LocLive env f l) {fuel : Nat} {id : Id} {out : Bytes}
    {w : World} (hf : w.data l.ino = f) :
    wp (localGet env (fuel + 2) l id out)
      (fun res w' => LocRes env f l id out res ∧
        (Quiet w w' [] ∨ Quiet w w' [.scan l.ino] ∧ (res.1 ≠ none → AllValid res.2.1)) ∧
        (res.2.1.idx = .freed → ¬ Clean w.sys ∨ false ∈ w.mem ∨ 2 ^ 56 ≤ f.length ∨ w.kind l.ino = .other))
      (fun s w' => (s = .killed ∨ s = .abort ∧ chunkEstimate l.p f.length = 0) ∧
        (Quiet w w' [] ∨ Quiet w w' [.scan l.ino])) w := by
  obtain ⟨idx, hl, hi, hv⟩ := hl
  have lift : ∀ idx' : Index, idx'.entries.Perm idx.entries → ∀ e ∈ idx'.entries, EntryOk env.H f e :=
    fun idx' hp e he => hv e (hp.mem_iff.1 he)
  apply wp_localPass hlib hl hi
  · intro idx' h1 h2 h3
    refine ⟨⟨rfl, rfl, rfl, ?_⟩, Or.inl (Quiet.refl w), by simp⟩
    intro n hn
    injection hn with hn
    subst hn
    exact ⟨⟨idx', rfl, h1, lift idx' h2⟩, by omega, by omega⟩
  · intro idx' e h1 h2 h3 h4 h5
    exact ⟨⟨rfl, rfl, rfl, by simp⟩, Or.inl (Quiet.refl w), by simp⟩
  · intro idx' e r k h1 h2 h3 h4 h5 h6 hk h7
    refine ⟨⟨rfl, rfl, ?_, by simp⟩, Or.inl (Quiet.ofSys h6.1), by simp⟩
    exact bufWrite0_length (by have := slice_length_le (w.data l.ino) e.start k; omega)
  · intro idx' e r h1 h2 h3 h4 h5 h6 h7 h8
    rw [hf] at h7 ⊢
    refine ⟨⟨rfl, rfl, bufWrite0_length (by omega), ?_⟩, Or.inl (Quiet.ofSys h6.1), by simp⟩
    intro n hn
    simp only [Option.some.injEq] at hn
    subst hn
    refine ⟨⟨idx', rfl, h1, lift idx' h2⟩, h5, fun _ => ?_⟩
    have ht : (bufWrite out 0 (slice f e.start e.len)).take e.len = slice f e.start e.len := by
      conv => lhs; arg 1; rw [← h7]
      exact bufWrite0_take
    simp only [ht]
    exact ⟨by rw [((hv e h3).2 h8).2, h4], e.start, rfl⟩
  · intro idx' e r i h0 h1 h2 h3 h4 h5 h6 h7 h8 h9 h10
    rw [hf] at h8 h9 ⊢
    refine ⟨⟨rfl, rfl, bufWrite0_length (by omega), ?_⟩, Or.inl (Quiet.ofSys h7.1), by simp⟩
    intro n hn
    simp only [Option.some.injEq] at hn
    subst hn
    have ht : (bufWrite out 0 (slice f e.start e.len)).take e.len = slice f e.start e.len := by
      conv => lhs; arg 1; rw [← h8]
      exact bufWrite0_take
    refine ⟨⟨_, rfl, h0, ?_⟩, h6, fun _ => by simp only [ht]; exact ⟨h9, e.start, rfl⟩⟩
    intro x hx
    rcases modify_mem h5 hx with hx | hx
    · subst hx
      exact ⟨(hv e h3).1, fun _ => ⟨h8, by simp only; rw [h9, h4]⟩⟩
    · exact lift idx' h2 x hx
  · intro e r h1 h2 h3 h4 h5 h6 h7
    rw [hf] at h6 h7 ⊢
    have hb : (bufWrite out 0 (slice f e.start e.len)).length = out.length := bufWrite0_length (by omega)
    have hq1 : Quiet w { w with sys := r } [] := Quiet.ofSys h5.1
    refine wp_storeScan (l := { l with idx := .freed }) he ?_ ?_ ?_ ?_
    · intro idx2 r2 m2 n cs g1 g2 g3 g4 g5 g6 g7
      simp only [hf] at g2 g3 g4 g5 g6 ⊢
      refine ⟨by simp, fun _ => ?_⟩
      have hq2 := hq1.trans (Quiet.ofScan (w := { w with sys := r }) (e := .scan l.ino) g2.1 g3)
      simp only [List.nil_append] at hq2
      generalize hw2 : ({ w with sys := r2, mem := m2, log := w.log ++ [Event.scan l.ino] } : World) = w2 at hq2 ⊢
      have hok : ∀ e ∈ idx2.entries, EntryOk env.H f e ∧ e.valid = true := by
        intro x hx
        rw [g7] at hx
        have := scanEntries_ok env g6 x hx
        exact ⟨this.1, this.2.1⟩
      refine wp_localGet_valid hlib (idx := idx2) (f := f) rfl g1 hok (by simp only; rw [hq2.data]; exact hf) ?_ ?_ ?_ ?_
      · intro idx' k1 k2 k3
        refine ⟨⟨rfl, rfl, hb, ?_⟩, Or.inr ⟨hq2, fun _ => ⟨idx', rfl, fun x hx => (hok x (k2.mem_iff.1 hx)).2⟩⟩, by simp⟩
        intro n hn
        injection hn with hn
        subst hn
        exact ⟨⟨idx', rfl, k1, fun x hx => (hok x (k2.mem_iff.1 hx)).1⟩, by omega, by omega⟩
      · intro idx' e r3 k1 k2 k3 k4 k5 k6 k7 k8 k9
        rw [hb] at k6
        refine ⟨⟨rfl, rfl, by simp only; rw [bufWrite0_length (by omega), hb], ?_⟩,
          Or.inr ⟨?_, fun _ => ⟨idx', rfl, fun x hx => (hok x (k2.mem_iff.1 hx)).2⟩⟩, by simp⟩
        · intro n hn
          simp only [Option.some.injEq] at hn
          subst hn
          refine ⟨⟨idx', rfl, k1, fun x hx => (hok x (k2.mem_iff.1 hx)).1⟩, k6, fun _ => ?_⟩
          simp only
          have ht : ∀ b, (bufWrite b 0 (slice f e.start e.len)).take e.len = slice f e.start e.len := by
            intro b
            conv => lhs; arg 1; rw [← k8]
            exact bufWrite0_take
          rw [ht]
          exact ⟨k9, e.start, rfl⟩
        · have := hq2.trans (Quiet.ofSys k7.1); simpa using this
      · intro idx' e r3 k k1 k2 k3 k4 k5 k6 k7
        rw [hb] at k6
        refine ⟨⟨rfl, rfl, ?_, by simp⟩, Or.inr ⟨?_, by simp⟩, by simp⟩
        · simp only
          rw [bufWrite0_length (by have := slice_length_le f e.start k; omega), hb]
        · have := hq2.trans (Quiet.ofSys k5); simpa using this
      · intro e k1 k2 k3 k4
        refine ⟨Or.inl rfl, Or.inr ?_⟩
        have := hq2.trans (Quiet.ofSys (w := w2) List.nil_suffix); simpa using this
    · intro i r2 m2 g1 g2 g3
      refine ⟨fun _ => ?_, by simp⟩
      refine ⟨⟨rfl, rfl, hb, by simp⟩, Or.inr ⟨?_, by simp⟩, fun _ => ?_⟩
      rotate_left
      · rw [hf] at g3
        simp only at g3
        rcases g3 with g | g
        · exact Or.inl (fun h => g (by first | exact h.suffix h5.1 | exact h.spent h5))
        · exact Or.inr g
      have := hq1.trans (Quiet.ofScan (w := { w with sys := r }) (e := .scan l.ino) g1 g2)
      simpa using this
    · intro r2 g1 g2
      simp only [hf] at g2
      refine ⟨Or.inr ⟨rfl, g2⟩, Or.inr ?_⟩
      have := hq1.trans (Quiet.ofScan (w := { w with sys := r }) (e := .scan l.ino) g1 (List.suffix_refl _))
      simpa using this
    · intro m2 g1 g2
      refine ⟨Or.inl rfl, Or.inr ?_⟩
      have := hq1.trans (Quiet.ofScan (w := { w with sys := r }) (e := .scan l.ino) List.nil_suffix g2)
      simpa using this
  · intro e _ _ _ _
    exact ⟨Or.inl rfl, Or.inl (Quiet.ofSys List.nil_suffix)⟩

end Csn.Proof
