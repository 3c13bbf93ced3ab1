import Verif.Proof.Wp
/-
C53: the exact-length I/O helpers under any schedule.
-/
namespace Csn.Props
open Csn Spec Proof

/-- Everything but the file contents, the schedule and the log stays as it was. -/
def SameRest (w w' : World) : Prop :=
  w'.kind = w.kind ∧ w'.dir = w.dir ∧ w'.next = w.next ∧ w'.mem = w.mem ∧ w'.net = w.net

/-- **C53**: a read helper that reports success delivered exactly the requested bytes from
exactly the requested position, for every sequence of short, interrupted and failing calls; it
never changes any file. -/
theorem C53_read_exact (ino off len : Nat) (w w' : World) (d : Bytes)
    (h : preadall ino off len w = (.ok (true, d), w')) :
    d.length = len ∧ d = slice (w.data ino) off len ∧
      w'.data = w.data ∧ w'.log = w.log ∧ SameRest w w' := by
  have : wp (preadall ino off len) (fun r w' => r.1 = true → r.2.length = len ∧
      r.2 = slice (w.data ino) off len ∧ w'.data = w.data ∧ w'.log = w.log ∧ SameRest w w')
      (fun _ _ => True) w := by
    apply wp_preadall
    · intro r _ hl _ _
      exact ⟨hl, rfl, rfl, rfl, rfl, rfl, rfl, rfl, rfl⟩
    · intro r n _ _ _ h; simp at h
    · intro _; trivial
  exact wp_ok this h rfl

/-- **C53**: a read helper reports failure only if a call failed, or the range is not inside the
file, or outside the offset range of the kernel. -/
theorem C53_read_failure_has_cause (ino off len : Nat) (w w' : World) (d : Bytes)
    (h : preadall ino off len w = (.ok (false, d), w')) :
    (Sys.err ∈ w.sys ∨ Sys.zero ∈ w.sys ∨ (w.data ino).length < off + len ∨ 2 ^ 63 ≤ off + len) ∧
      d = slice (w.data ino) off d.length ∧ d.length < len ∧
      w'.data = w.data ∧ w'.log = w.log ∧ SameRest w w' := by
  have : wp (preadall ino off len) (fun r w' => r.1 = false →
      (Sys.err ∈ w.sys ∨ Sys.zero ∈ w.sys ∨ (w.data ino).length < off + len ∨ 2 ^ 63 ≤ off + len) ∧
      r.2 = slice (w.data ino) off r.2.length ∧ r.2.length < len ∧
      w'.data = w.data ∧ w'.log = w.log ∧ SameRest w w')
      (fun _ _ => True) w := by
    apply wp_preadall
    · intro r _ hl _ h; simp at h
    · intro r n _ hn hc _
      have hsl : (slice (w.data ino) off n).length ≤ n := by simp [slice]; omega
      refine ⟨?_, ?_, Nat.lt_of_le_of_lt hsl hn, rfl, rfl, rfl, rfl, rfl, rfl, rfl⟩
      · rcases hc with hc | hc | hc
        · by_cases h1 : Sys.err ∈ w.sys
          · exact Or.inl h1
          · by_cases h2 : Sys.zero ∈ w.sys
            · exact Or.inr (Or.inl h2)
            · exact absurd ⟨h1, h2⟩ hc
        · exact Or.inr (Or.inr (Or.inl hc))
        · exact Or.inr (Or.inr (Or.inr hc))
      · simp only [slice]
        rw [List.take_eq_take_iff]
        simp [List.length_take]
    · intro _; trivial
  exact wp_ok this h rfl

/-- **C53**: interruptions and short transfers never change the result: without failing calls a
read inside the file succeeds as soon as `len` calls transfer something. -/
theorem C53_read_succeeds (ino off len : Nat) (w : World) (he : Sys.err ∉ w.sys)
    (hz : Sys.zero ∉ w.sys) (hin : off + len ≤ (w.data ino).length) (hrange : off + len < 2 ^ 63)
    (hmany : len ≤ okCalls w.sys) :
    ∃ w', preadall ino off len w = (.ok (true, slice (w.data ino) off len), w') := by
  have : wp (preadall ino off len) (fun r _ => r = (true, slice (w.data ino) off len)) (fun _ _ => False) w := by
    apply wp_preadall
    · intro r _ _ _; rfl
    · intro r n _ _ hc
      rcases hc with hc | hc | hc
      · exact absurd ⟨he, hz⟩ hc
      · omega
      · omega
    · intro _; omega
  unfold wp at this
  split at this
  · next a w' h => exact ⟨w', by rw [h, this]⟩
  · exact absurd this (by simp)

/-- **C53**: at every end of a write helper - success, failure, assertion or kill - the file is the
old one with a prefix of the data placed at the requested position (byte by byte, `Patched`), and
no other file changed.  The prefix is complete exactly if success is reported. -/
theorem C53_write_prefix (ino off : Nat) (d : Bytes) (w : World) :
    ∃ (k : Nat) (evs : List (Nat × Bytes)), k ≤ d.length ∧ ((pwriteall ino d off w).1 = .ok true ↔ k = d.length) ∧
      Patched (w.data ino) off (d.take k) ((pwriteall ino d off w).2.data ino) ∧
      (∀ i, i ≠ ino → (pwriteall ino d off w).2.data i = w.data i) ∧
      (pwriteall ino d off w).2.log = w.log ++ evs.map (fun e => Event.write ino e.1 e.2) ∧
      (evs.map (·.2)).flatten = d.take k ∧
      SameRest w (pwriteall ino d off w).2 := by
  have : wp (pwriteall ino d off)
      (fun b w' => ∃ (k : Nat) (evs : List (Nat × Bytes)), k ≤ d.length ∧ (b = true ↔ k = d.length) ∧
        Patched (w.data ino) off (d.take k) (w'.data ino) ∧ (∀ i, i ≠ ino → w'.data i = w.data i) ∧
        w'.log = w.log ++ evs.map (fun e => Event.write ino e.1 e.2) ∧
        (evs.map (·.2)).flatten = d.take k ∧ SameRest w w')
      (fun _ w' => ∃ (k : Nat) (evs : List (Nat × Bytes)), k < d.length ∧
        Patched (w.data ino) off (d.take k) (w'.data ino) ∧ (∀ i, i ≠ ino → w'.data i = w.data i) ∧
        w'.log = w.log ++ evs.map (fun e => Event.write ino e.1 e.2) ∧
        (evs.map (·.2)).flatten = d.take k ∧ SameRest w w') w := by
    apply wp_pwriteall
    · intro r evs _ hp _ _
      refine ⟨d.length, evs, Nat.le_refl _, by simp, ?_, ?_, rfl, ?_, rfl, rfl, rfl, rfl, rfl⟩
      · simp only [wrote, if_true, List.take_length]; exact writeAt_patched _ _ _
      · intro i hi; simp [wrote, hi]
      · rw [List.take_length]; exact hp.1
    · intro r evs k _ hk hp _ _ _
      refine ⟨k, evs, by omega, by simp; omega, ?_, ?_, rfl, hp.1, rfl, rfl, rfl, rfl, rfl⟩
      · simp only [wrote, if_true]; exact writeAt_patched _ _ _
      · intro i hi; simp [wrote, hi]
    · intro r evs k s hk hp _ _ _ _
      refine ⟨k, evs, hk, ?_, ?_, rfl, hp.1, rfl, rfl, rfl, rfl, rfl⟩
      · simp only [wrote, if_true]; exact writeAt_patched _ _ _
      · intro i hi; simp [wrote, hi]
  unfold wp at this
  split at this
  · next a w' h =>
    rw [h]
    obtain ⟨k, evs, h1, h2, h3⟩ := this
    exact ⟨k, evs, h1, by simpa using h2, h3⟩
  · next s w' h =>
    rw [h]
    obtain ⟨k, evs, h1, h3⟩ := this
    exact ⟨k, evs, by omega, by simp; omega, h3⟩

/-- **C53**: a write helper that reports success has placed exactly the data at exactly the
position. -/
theorem C53_write_exact (ino off : Nat) (d : Bytes) (w w' : World)
    (h : pwriteall ino d off w = (.ok true, w')) :
    Patched (w.data ino) off d (w'.data ino) ∧ slice (w'.data ino) off d.length = d ∧
      (∀ i, i ≠ ino → w'.data i = w.data i) := by
  obtain ⟨k, evs, h1, h2, h3, h4, _⟩ := C53_write_prefix ino off d w
  rw [h] at h2 h3 h4
  have hk : k = d.length := h2.1 rfl
  subst hk
  rw [List.take_length] at h3
  refine ⟨h3, ?_, h4⟩
  rw [patched_unique h3 (writeAt_patched _ _ _)]
  exact slice_writeAt _ _ _

/-- **C53**: without failing calls a write to a regular file succeeds as soon as `d.length` calls
transfer something. -/
theorem C53_write_succeeds (ino off : Nat) (d : Bytes) (w : World) (he : Sys.err ∉ w.sys)
    (hz : Sys.zero ∉ w.sys) (hin : w.kind ino = .blk → off + d.length ≤ (w.data ino).length)
    (hrange : off + d.length < 2 ^ 63) (hmany : d.length ≤ okCalls w.sys) :
    (pwriteall ino d off w).1 = .ok true := by
  have : wp (pwriteall ino d off) (fun r _ => r = true) (fun _ _ => False) w := by
    apply wp_pwriteall
    · intros; rfl
    · intro r evs k _ _ _ _ _ hc
      rcases hc with hc | hc | hc
      · exact absurd ⟨he, hz⟩ hc
      · have := hin hc.1; omega
      · omega
    · intro r evs k s _ _ _ _ _ hc
      rcases hc with hc | hc
      · exact absurd ⟨he, hz⟩ hc.2
      · omega
  unfold wp at this
  split at this
  · next a w' h => rw [h, this]
  · exact absurd this (by simp)

/-- A small world for the examples: inode 7 holds ten bytes. -/
def ioWorld (sys : List Sys) : World :=
  { data := fun i => if i = 7 then [0, 1, 2, 3, 4, 5, 6, 7, 8, 9] else []
    kind := fun _ => .reg, dir := fun _ => none, next := 8, sys := sys, mem := [], net := [], log := [] }

/-- Short and interrupted reads deliver the requested range ... -/
example : (preadall 7 3 5 (ioWorld [.some 0, .eintr, .some 1, .some 90])).1 = .ok (true, [3, 4, 5, 6, 7]) := by
  decide

/-- ... a range behind the end of the file is reported, ... -/
example : (preadall 7 8 5 (ioWorld [.some 0, .eintr, .some 1, .some 90])).1 = .ok (false, [8, 9]) := by
  decide

/-- ... and a kill in the middle of a write leaves a prefix. -/
example : (pwriteall 7 [21, 22, 23, 24] 8 (ioWorld [.some 0, .eintr, .some 1])).1 = .stop .killed ∧
    (pwriteall 7 [21, 22, 23, 24] 8 (ioWorld [.some 0, .eintr, .some 1])).2.data 7 =
      [0, 1, 2, 3, 4, 5, 6, 7, 21, 22, 23] := by
  decide

/-- The hypotheses of the success theorems are satisfiable. -/
example : (pwriteall 7 [21, 22, 23, 24] 12 (ioWorld [.some 0, .eintr, .some 1, .some 0, .some 3])).1 = .ok true ∧
    (pwriteall 7 [21, 22, 23, 24] 12 (ioWorld [.some 0, .eintr, .some 1, .some 0, .some 3])).2.data 7 =
      [0, 1, 2, 3, 4, 5, 6, 7, 8, 9, 0, 0, 21, 22, 23, 24] := by
  decide

end Csn.Props
