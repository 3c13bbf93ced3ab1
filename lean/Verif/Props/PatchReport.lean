import Verif.Props.Patchdd
/-
C83: the number of skipped bytes patchdd prints.
-/
namespace Csn.Props
open Csn Csn.Spec Csn.Proof

theorem nodup_perm {x y : List Nat} (hx : x.Nodup) (hy : y.Nodup) (h : ∀ a, a ∈ x ↔ a ∈ y) : x.Perm y := by
  rw [List.perm_iff_count]
  intro a
  rw [hx.count, hy.count]
  simp only [h]

/-- The positions covered by writes. -/
def places (ws : List (Nat × Bytes)) : List Nat := ws.flatMap (fun e => List.range' e.1 e.2.length)

theorem mem_places {ws : List (Nat × Bytes)} {pos : Nat} : pos ∈ places ws ↔ Covered ws pos := by
  simp [places, Covered, List.mem_range'_1]

theorem places_length {ws : List (Nat × Bytes)} : (places ws).length = (ws.map (·.2.length)).sum := by
  induction ws with
  | nil => rfl
  | cons e ws ih =>
    have : places (e :: ws) = List.range' e.1 e.2.length ++ places ws := rfl
    rw [this, List.length_append, ih]
    simp

theorem places_nodup {ws : List (Nat × Bytes)} (h : Upwards ws) : (places ws).Nodup := by
  induction ws with
  | nil => exact List.nodup_nil
  | cons e ws ih =>
    obtain ⟨h1, h2⟩ := List.pairwise_cons.1 h
    refine List.nodup_append.2 ⟨List.nodup_range', ih h2, ?_⟩
    intro a ha b hb
    rw [List.mem_range'_1] at ha
    obtain ⟨e', he', hb1, hb2⟩ := mem_places.1 hb
    have := h1 e' he'
    omega

/-- **C83**: patchdd prints the count of skipped bytes if and only if it succeeds. -/
theorem C83_printed_iff_success (T : Nat) (hT : 0 < T) (args : List Bytes) (w w' : World) (o : Res Bool) (hrun : patchdd T args w = (o, w')) :
    ∃ evs, w'.log = w.log ++ evs ∧ (o = .ok true ↔ ∃ n, Event.skipped n ∈ evs) := by
  rcases patch_cases hT hrun with ⟨_, h2, _, _, h⟩ | ⟨a, b, rest, src, dst, m, p, w1, rfl, ha, hb, _, _, h6, h7⟩
  · refine ⟨[], by simpa using h2, ?_⟩
    rcases h with ⟨h, _⟩ | h <;> simp [h]
  · obtain ⟨m, p, ws, -, h2, -⟩ := patch_events hT hrun ha hb
    refine ⟨_, by rw [h2, List.append_assoc], ?_⟩
    constructor
    · intro ho
      exact ⟨m, by simp [ho]⟩
    · rintro ⟨n, hn⟩
      apply Classical.byContradiction
      intro ho
      simp [ho] at hn

/-- **C83**: the number printed by a run that succeeds is printed once and last, behind the flush of the destination.  It and
the bytes written make up the size of the source, and it is the number of positions of the source for which there is no
difference at them or before them within their block. -/
theorem C83_count (T : Nat) (hT : 0 < T) (a b : Bytes) (rest : List Bytes) (w w' : World)
    (hrun : patchdd T (a :: b :: rest) w = (.ok true, w')) :
    ∃ src dst n evs, w.dir a = some src ∧ w.dir b = some dst ∧ w'.log = w.log ++ evs ++ [.fsync dst, .skipped n] ∧
      (∀ k, Event.skipped k ∉ evs) ∧ n + ((writesOf evs).map (·.2.length)).sum = (w.data src).length ∧
      ∀ l : List Nat, l.Nodup → (∀ pos, pos ∈ l ↔ pos < (w.data src).length ∧ ¬ Differs T (w.data src) (w.data dst) pos) → l.length = n := by
  obtain ⟨a', b', rest', src, dst, h1, ha, hb, _⟩ := C50_copies T hT _ w w' hrun
  cases h1
  obtain ⟨m, p, ws, _, h2, h3, h4, h5, _, _, _, _, _, h10, h11, _⟩ := patch_events hT hrun ha hb
  have hp := h11 rfl
  subst hp
  refine ⟨src, dst, m, _, ha, hb, by simpa using h2, by simp, by rw [writesOf_map]; exact h10, ?_⟩
  intro l hl hmem
  have hperm : (l ++ places ws).Perm (List.range (w.data src).length) := by
    refine nodup_perm (List.nodup_append.2 ⟨hl, places_nodup h3, ?_⟩) List.nodup_range ?_
    · rintro x hx y hy rfl
      exact ((hmem x).1 hx).2 ((h5 x).1 (mem_places.1 hy)).2
    · intro x
      rw [List.mem_append, hmem, mem_places, h5, List.mem_range]
      by_cases hd : Differs T (w.data src) (w.data dst) x <;> simp [hd]
  have := hperm.length_eq
  rw [List.length_append, places_length, List.length_range] at this
  omega

/-- **C83**: everything was skipped if and only if nothing was written, and this is so if and only if the destination started
with the source before. -/
theorem C83_all_skipped (T : Nat) (hT : 0 < T) (a b : Bytes) (rest : List Bytes) (w w' : World)
    (hrun : patchdd T (a :: b :: rest) w = (.ok true, w')) (src dst : Nat) (ha : w.dir a = some src) (hb : w.dir b = some dst) :
    ∃ n evs, w'.log = w.log ++ evs ++ [.skipped n] ∧ n ≤ (w.data src).length ∧
      (n = (w.data src).length ↔ writesOf evs = []) ∧ (n = (w.data src).length ↔ w.data src <+: w.data dst) := by
  obtain ⟨m, p, ws, _, h2, h3, h4, h5, _, _, _, _, _, h10, h11, h12⟩ := patch_events hT hrun ha hb
  have hp := h11 rfl
  subst hp
  have e1 : m = (w.data src).length ↔ ws = [] := by
    constructor
    · intro h
      cases ws with
      | nil => rfl
      | cons e ws =>
        have := List.length_pos_iff.2 (h4 e (by simp)).2.1
        simp only [List.map_cons, List.sum_cons] at h10
        omega
    · rintro rfl
      simpa using h10
  refine ⟨m, ws.map (fun e => Event.write dst e.1 e.2) ++ [.fsync dst], by simpa using h2, by omega, ?_, ?_⟩
  · rw [writesOf_append, writesOf_map, e1]
    simp [writesOf]
  · rw [e1]
    constructor
    · rintro rfl
      have hn : ∀ q, q < (w.data src).length → (w.data src)[q]? = (w.data dst)[q]? := by
        intro q hq
        apply Classical.byContradiction
        intro hne
        obtain ⟨e, he, _⟩ := (h5 q).2 ⟨hq, q, Nat.mul_div_le q T, Nat.le_refl _, hne⟩
        cases he
      have hle : (w.data src).length ≤ (w.data dst).length := by
        by_cases h0 : (w.data src).length = 0
        · omega
        · exact h12 h0
      rw [List.prefix_iff_eq_take]
      apply List.ext_getElem?
      intro i
      by_cases hi : i < (w.data src).length
      · rw [List.getElem?_take_of_lt hi, hn i hi]
      · rw [List.getElem?_eq_none (by omega), List.getElem?_eq_none (by rw [List.length_take]; omega)]
    · intro hpre
      cases ws with
      | nil => rfl
      | cons e ws =>
        exfalso
        have g := h4 e (by simp)
        have hl := List.length_pos_iff.2 g.2.1
        obtain ⟨_, q, _, q2, q3⟩ := (h5 e.1).1 ⟨e, by simp, Nat.le_refl _, by omega⟩
        apply q3
        obtain ⟨t, ht⟩ := hpre
        rw [← ht, List.getElem?_append_left (by omega)]

/-- A case of `C83_count` and `C83_printed_iff_success`: of 10 bytes 7 are skipped. -/
example : patchdd 4 [str "s", str "d"] (patchWorld (List.replicate 30 (.some 2))) =
      (.ok true, (patchdd 4 [str "s", str "d"] (patchWorld (List.replicate 30 (.some 2)))).2) ∧
    (patchdd 4 [str "s", str "d"] (patchWorld (List.replicate 30 (.some 2)))).2.log = [.write 2 5 [6, 7, 8], .fsync 2, .skipped 7] := by
  have h : (patchdd 4 [str "s", str "d"] (patchWorld (List.replicate 30 (.some 2)))).1 = .ok true ∧
    (patchdd 4 [str "s", str "d"] (patchWorld (List.replicate 30 (.some 2)))).2.log = [.write 2 5 [6, 7, 8], .fsync 2, .skipped 7] := by
    decide +kernel
  exact ⟨by rw [← h.1], h.2⟩

/-- The positions skipped in it. -/
example : ([0, 1, 2, 3, 4, 8, 9] : List Nat).Nodup ∧ ([0, 1, 2, 3, 4, 8, 9] : List Nat).length = 7 ∧
    Differs 4 ((patchWorld []).data 1) ((patchWorld []).data 2) 6 := by
  refine ⟨by decide, rfl, 5, by decide, by decide, by decide⟩

/-- A second run skips everything. -/
example : (patchdd 4 [str "s", str "s"] (patchWorld (List.replicate 30 (.some 2)))).2.log = [.fsync 1, .skipped 10] := by
  decide +kernel

/-- A run that fails prints nothing. -/
example : (patchdd 4 [str "s", str "d"] (patchWorld (List.replicate 12 (.some 2) ++ [.err]))).1 = .ok false ∧
    (patchdd 4 [str "s", str "d"] (patchWorld (List.replicate 12 (.some 2) ++ [.err]))).2.log = [] := by
  decide +kernel

end Csn.Props
