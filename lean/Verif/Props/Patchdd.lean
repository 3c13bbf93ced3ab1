import Verif.Proof.Patchdd
/-
C50 - C52: patchdd.
-/
namespace Csn.Props
open Csn Spec Proof

/-- Reasons for patchdd to refuse its arguments. -/
def PatchRefuses (args : List Bytes) (w : World) : Prop :=
  args.length < 2 ∨ args.head? = some (str "-h") ∨ args.head? = some (str "--help") ∨ ¬ Clean w.sys ∨
    ∃ a b, args[0]? = some a ∧ args[1]? = some b ∧ (w.dir a = none ∨ w.dir b = none ∨
      (∃ i, (w.dir a = some i ∨ w.dir b = some i) ∧ w.kind i = .other) ∨
      ∃ i j, w.dir a = some i ∧ w.dir b = some j ∧ (w.data j).length < (w.data i).length)

/-- What a run of patchdd comes to: nothing at all, or a copy up to some position. -/
theorem patch_cases {T : Nat} {args : List Bytes} {w w' : World} {o : Res Bool} (hT : 0 < T) (hrun : patchdd T args w = (o, w')) :
    (w'.data = w.data ∧ w'.log = w.log ∧ w'.dir = w.dir ∧ w'.next = w.next ∧ (o = .ok false ∧ PatchRefuses args w ∨ o = .stop .killed)) ∨
    ∃ a b rest src dst m p w1, args = a :: b :: rest ∧ w.dir a = some src ∧ w.dir b = some dst ∧ (w.data src).length ≤ (w.data dst).length ∧
      p ≤ (w.data src).length ∧ Copied T (w.data src) (w.data dst) dst w m p w1 ∧
      ((o = .ok true ∧ p = (w.data src).length ∧ w' = { w1 with log := w1.log ++ [.fsync dst, .skipped m] }) ∨
       (o = .ok false ∧ w' = w1 ∧ (¬ Clean w.sys ∨ 2 ^ 63 ≤ (w.data src).length)) ∨
       (w' = w1 ∧ (o = .stop .killed ∨ o = .stop .abort ∧ ¬ Clean w.sys))) := by
  have key : wp (patchdd T args)
      (fun r w' => (w'.data = w.data ∧ w'.log = w.log ∧ w'.dir = w.dir ∧ w'.next = w.next ∧ r = false ∧ PatchRefuses args w) ∨
        ∃ a b rest src dst m p w1, args = a :: b :: rest ∧ w.dir a = some src ∧ w.dir b = some dst ∧ (w.data src).length ≤ (w.data dst).length ∧
          p ≤ (w.data src).length ∧ Copied T (w.data src) (w.data dst) dst w m p w1 ∧
          ((r = true ∧ p = (w.data src).length ∧ w' = { w1 with log := w1.log ++ [.fsync dst, .skipped m] }) ∨
           (r = false ∧ w' = w1 ∧ (¬ Clean w.sys ∨ 2 ^ 63 ≤ (w.data src).length))))
      (fun s w' => (w'.data = w.data ∧ w'.log = w.log ∧ w'.dir = w.dir ∧ w'.next = w.next ∧ s = .killed) ∨
        ∃ a b rest src dst m p, args = a :: b :: rest ∧ w.dir a = some src ∧ w.dir b = some dst ∧ (w.data src).length ≤ (w.data dst).length ∧
          p ≤ (w.data src).length ∧ Copied T (w.data src) (w.data dst) dst w m p w' ∧ (s = .killed ∨ s = .abort ∧ ¬ Clean w.sys)) w := by
    unfold patchdd
    match args with
    | [] => exact wp_pure (Or.inl ⟨rfl, rfl, rfl, rfl, rfl, Or.inl (by simp)⟩)
    | [_] => exact wp_pure (Or.inl ⟨rfl, rfl, rfl, rfl, rfl, Or.inl (by simp)⟩)
    | a :: b :: rest =>
      simp only
      by_cases hh : (streq a (str "-h") || streq a (str "--help")) = true
      · rw [if_pos hh]
        refine wp_pure (Or.inl ⟨rfl, rfl, rfl, rfl, rfl, ?_⟩)
        simp only [streq, Bool.or_eq_true, beq_iff_eq] at hh
        rcases hh with hh | hh
        · exact Or.inr (Or.inl (by rw [hh]; rfl))
        · exact Or.inr (Or.inr (Or.inl (by rw [hh]; rfl)))
      · rw [if_neg hh]
        have dirty : ∀ {r : List Sys} {n : Nat}, Spent w.sys r n → ¬ Clean r → PatchRefuses (a :: b :: rest) w :=
          fun hs hc => Or.inr (Or.inr (Or.inr (Or.inl (fun h => hc (h.spent hs)))))
        have other : (w.dir a = none ∨ w.dir b = none ∨ (∃ i, (w.dir a = some i ∨ w.dir b = some i) ∧ w.kind i = .other) ∨
            ∃ i j, w.dir a = some i ∧ w.dir b = some j ∧ (w.data j).length < (w.data i).length) → PatchRefuses (a :: b :: rest) w :=
          fun h => Or.inr (Or.inr (Or.inr (Or.inr ⟨a, b, rfl, rfl, h⟩)))
        refine wp_bind (wp_openPath (fun r1 s1 => ?_) (fun r1 s1 hc => ?_) (fun _ => Or.inl ⟨rfl, rfl, rfl, rfl, rfl⟩))
        · cases ha : w.dir a with
          | none => exact wp_pure (Or.inl ⟨rfl, rfl, rfl, rfl, rfl, other (Or.inl ha)⟩)
          | some src =>
            simp only
            refine wp_bind (wp_openPath (fun r2 s2 => ?_) (fun r2 s2 hc => ?_) (fun _ => Or.inl ⟨rfl, rfl, rfl, rfl, rfl⟩))
            · simp only at s2 ⊢
              have t2 := s1.trans s2
              cases hb : w.dir b with
              | none => exact wp_pure (Or.inl ⟨rfl, rfl, rfl, rfl, rfl, other (Or.inr (Or.inl hb))⟩)
              | some dst =>
                simp only
                refine wp_bind (wp_fdSize (fun r3 s3 k3 => ?_) (fun r3 s3 hc => ?_) (fun _ => Or.inl ⟨rfl, rfl, rfl, rfl, rfl⟩))
                · simp only at s3 ⊢
                  have t3 := t2.trans s3
                  refine wp_bind (wp_fdSize (fun r4 s4 k4 => ?_) (fun r4 s4 hc => ?_) (fun _ => Or.inl ⟨rfl, rfl, rfl, rfl, rfl⟩))
                  · simp only at s4 ⊢
                    have t4 := t3.trans s4
                    by_cases hlt : (w.data dst).length < (w.data src).length
                    · rw [if_pos hlt]
                      exact wp_pure (Or.inl ⟨rfl, rfl, rfl, rfl, rfl, other (Or.inr (Or.inr (Or.inr ⟨src, dst, ha, hb, hlt⟩)))⟩)
                    · rw [if_neg hlt]
                      have hle : (w.data src).length ≤ (w.data dst).length := by omega
                      have h0 : Copied T (w.data src) (w.data dst) dst w 0 0 { w with sys := r4 } := by
                        refine ⟨by simp [mix], fun _ _ => rfl, rfl, rfl, rfl, t4.1, [], by simp, List.Pairwise.nil, by simp, fun pos => ?_, by simp [Results, mix], by simp⟩
                        constructor
                        · rintro ⟨e, he, _⟩; simp at he
                        · rintro ⟨h, _⟩; omega
                      refine wp_bind (wp_patchLoop hT hle rfl rfl ?_ ?_ ?_ _ _ _ _ (by omega) (Or.inl (Nat.zero_mod _)) (by omega) h0)
                      · intro m w1 hw1
                        simp only
                        refine wp_bind (wp_sysOk (fun r5 s5 => ?_) (fun r5 s5 hc => ?_) (fun _ => ?_))
                        · rw [if_neg (by simp)]
                          refine wp_bind (wp_emit (wp_bind (wp_emit (wp_pure (Or.inr ⟨a, b, rest, src, dst, m, _, { w1 with sys := r5 }, rfl, ha, hb, hle, Nat.le_refl _, hw1.sysOnly s5.1, Or.inl ⟨rfl, rfl, by simp⟩⟩)))))
                        · rw [if_pos (by simp)]
                          exact wp_pure (Or.inr ⟨a, b, rest, src, dst, m, _, _, rfl, ha, hb, hle, Nat.le_refl _, hw1.sysOnly s5.1, Or.inr ⟨rfl, rfl, Or.inl (fun h => hc (h.suffix hw1.sys))⟩⟩)
                        · exact Or.inr ⟨a, b, rest, src, dst, m, _, rfl, ha, hb, hle, Nat.le_refl _, hw1.sysOnly List.nil_suffix, Or.inl rfl⟩
                      · intro m p w1 hp hw1 hc
                        exact wp_pure (Or.inr ⟨a, b, rest, src, dst, m, p, w1, rfl, ha, hb, hle, hp, hw1, Or.inr ⟨rfl, rfl, hc⟩⟩)
                      · intro s m p w1 hp hw1 hc
                        exact Or.inr ⟨a, b, rest, src, dst, m, p, rfl, ha, hb, hle, hp, hw1, hc⟩
                  · refine wp_pure (Or.inl ⟨rfl, rfl, rfl, rfl, rfl, ?_⟩)
                    rcases hc with hc | hc
                    · exact dirty t3 hc
                    · exact other (Or.inr (Or.inr (Or.inl ⟨dst, Or.inr hb, hc⟩)))
                · refine wp_pure (Or.inl ⟨rfl, rfl, rfl, rfl, rfl, ?_⟩)
                  rcases hc with hc | hc
                  · exact dirty t2 hc
                  · exact other (Or.inr (Or.inr (Or.inl ⟨src, Or.inl ha, hc⟩)))
            · exact wp_pure (Or.inl ⟨rfl, rfl, rfl, rfl, rfl, dirty s1 hc⟩)
        · exact wp_pure (Or.inl ⟨rfl, rfl, rfl, rfl, rfl, dirty (Spent.refl _) hc⟩)
  cases o with
  | ok r =>
    rcases wp_ok key hrun with ⟨h1, h2, h3, h4, h5, h6⟩ | ⟨a, b, rest, src, dst, m, p, w1, h1, h2, h3, h4, h5, h6, h7⟩
    · exact Or.inl ⟨h1, h2, h3, h4, Or.inl ⟨by rw [h5], h6⟩⟩
    · refine Or.inr ⟨a, b, rest, src, dst, m, p, w1, h1, h2, h3, h4, h5, h6, ?_⟩
      rcases h7 with ⟨g1, g2, g3⟩ | ⟨g1, g2⟩
      · exact Or.inl ⟨by rw [g1], g2, g3⟩
      · exact Or.inr (Or.inl ⟨by rw [g1], g2⟩)
  | stop s =>
    rcases wp_stopped key hrun with ⟨h1, h2, h3, h4, h5⟩ | ⟨a, b, rest, src, dst, m, p, h1, h2, h3, h4, h5, h6, h7⟩
    · exact Or.inl ⟨h1, h2, h3, h4, Or.inr (by rw [h5])⟩
    · refine Or.inr ⟨a, b, rest, src, dst, m, p, w', h1, h2, h3, h4, h5, h6, Or.inr (Or.inr ⟨rfl, ?_⟩)⟩
      rcases h7 with h | ⟨h, h'⟩
      · exact Or.inl (by rw [h])
      · exact Or.inr ⟨by rw [h], h'⟩

/-! ### C50 -/

/-- **C50**: if patchdd succeeds, the destination consists of the source followed by what the destination had behind the
source's length; no other file has changed, so the source has not either (unless it is the destination). -/
theorem C50_copies (T : Nat) (hT : 0 < T) (args : List Bytes) (w w' : World) (hrun : patchdd T args w = (.ok true, w')) :
    ∃ a b rest src dst, args = a :: b :: rest ∧ w.dir a = some src ∧ w.dir b = some dst ∧
      w'.data dst = w.data src ++ (w.data dst).drop (w.data src).length ∧ (∀ i, i ≠ dst → w'.data i = w.data i) ∧ w'.dir = w.dir := by
  rcases patch_cases hT hrun with ⟨_, _, _, _, h | h⟩ | ⟨a, b, rest, src, dst, m, p, w1, h1, h2, h3, h4, h5, h6, h7⟩
  · exact absurd h.1 (by simp)
  · cases h
  · rcases h7 with ⟨_, rfl, rfl⟩ | ⟨h, _⟩ | ⟨_, h | ⟨h, _⟩⟩
    · refine ⟨a, b, rest, src, dst, h1, h2, h3, ?_, h6.rest, h6.dir⟩
      show w1.data dst = _
      rw [h6.data]
      simp [mix]
    all_goals simp at h

/-- **C50**, too small a destination: the run does not succeed, writes nothing and changes nothing. -/
theorem C50_too_small (T : Nat) (hT : 0 < T) (a b : Bytes) (rest : List Bytes) (w w' : World) (o : Res Bool) (hrun : patchdd T (a :: b :: rest) w = (o, w'))
    (src dst : Nat) (ha : w.dir a = some src) (hb : w.dir b = some dst) (hlt : (w.data dst).length < (w.data src).length) :
    (o = .ok false ∨ o = .stop .killed) ∧ w'.data = w.data ∧ w'.log = w.log := by
  rcases patch_cases hT hrun with ⟨h1, h2, _, _, h⟩ | ⟨a', b', rest', src', dst', m, p, w1, h1, h2, h3, h4, _⟩
  · refine ⟨?_, h1, h2⟩
    rcases h with h | h
    · exact Or.inl h.1
    · exact Or.inr h
  · cases h1
    rw [ha] at h2
    rw [hb] at h3
    cases h2; cases h3
    omega

/-- **C50**, completeness: with existing files or block devices of fitting sizes and without failing system calls patchdd
succeeds, unless it is killed. -/
theorem C50_succeeds (T : Nat) (hT : 0 < T) (a b : Bytes) (rest : List Bytes) (w w' : World) (o : Res Bool) (hrun : patchdd T (a :: b :: rest) w = (o, w'))
    (src dst : Nat) (ha : w.dir a = some src) (hb : w.dir b = some dst) (hle : (w.data src).length ≤ (w.data dst).length)
    (hsize : (w.data src).length < 2 ^ 63) (hk : w.kind src ≠ .other) (hk' : w.kind dst ≠ .other) (hclean : Clean w.sys)
    (hh : a ≠ str "-h") (hh' : a ≠ str "--help") : o = .ok true ∨ o = .stop .killed := by
  rcases patch_cases hT hrun with ⟨h1, h2, _, _, ⟨_, h⟩ | h⟩ | ⟨a', b', rest', src', dst', m, p, w1, h1, h2, h3, h4, h5, h6, h7⟩
  · exfalso
    rcases h with h | h | h | h | ⟨a', b', e1, e2, h⟩
    · simp only [List.length_cons] at h; omega
    · exact hh (by simpa using h)
    · exact hh' (by simpa using h)
    · exact h hclean
    · simp only [List.getElem?_cons_zero, List.getElem?_cons_succ, Option.some.injEq] at e1 e2
      subst e1 e2
      rcases h with h | h | ⟨i, h | h, h'⟩ | ⟨i, j, h, h', h''⟩
      · rw [ha] at h; cases h
      · rw [hb] at h; cases h
      · rw [ha] at h; cases h; exact hk h'
      · rw [hb] at h; cases h; exact hk' h'
      · rw [ha] at h; rw [hb] at h'; cases h; cases h'; omega
  · exact Or.inr h
  · cases h1
    rw [ha] at h2
    rw [hb] at h3
    cases h2; cases h3
    rcases h7 with ⟨h, _⟩ | ⟨_, _, h | h⟩ | ⟨_, h | ⟨_, h⟩⟩
    · exact Or.inl h
    · exact absurd hclean h
    · omega
    · exact Or.inr h
    · exact absurd hclean h

/-! ### C51 -/

/-- The events of a run: writes to the destination, and after success a flush of it. -/
theorem patch_events {T : Nat} {a b : Bytes} {rest : List Bytes} {w w' : World} {o : Res Bool} (hT : 0 < T) (hrun : patchdd T (a :: b :: rest) w = (o, w'))
    {src dst : Nat} (ha : w.dir a = some src) (hb : w.dir b = some dst) : ∃ m p ws, p ≤ (w.data src).length ∧
      w'.log = w.log ++ ws.map (fun e => Event.write dst e.1 e.2) ++ (if o = .ok true then [.fsync dst, .skipped m] else []) ∧ Upwards ws ∧
      (∀ e ∈ ws, e.2 = slice (w.data src) e.1 e.2.length ∧ e.2 ≠ [] ∧ e.1 + e.2.length ≤ p) ∧
      (∀ pos, Covered ws pos ↔ pos < p ∧ Differs T (w.data src) (w.data dst) pos) ∧ Results (w.data dst) ws (w'.data dst) ∧
      w'.data dst = mix (w.data src) (w.data dst) p ∧ (∀ i, i ≠ dst → w'.data i = w.data i) ∧ w'.dir = w.dir ∧ w'.next = w.next ∧
      m + (ws.map (·.2.length)).sum = p ∧ (o = .ok true → p = (w.data src).length) ∧ (p ≠ 0 → (w.data src).length ≤ (w.data dst).length) := by
  rcases patch_cases hT hrun with ⟨h1, h2, h3, h4, h⟩ | ⟨a', b', rest', src', dst', m, p, w1, h1, h2, h3, h4, h5, h6, h7⟩
  · refine ⟨0, 0, [], Nat.zero_le _, ?_, List.Pairwise.nil, by simp, ?_, ?_, ?_, fun i _ => by rw [h1], h3, h4, by simp, ?_, by simp⟩
    · rw [h2, if_neg]
      · simp
      · rcases h with h | h
        · rw [h.1]; simp
        · rw [h]; simp
    · intro pos
      constructor
      · rintro ⟨e, he, _⟩; simp at he
      · rintro ⟨h, _⟩; omega
    · rw [h1]; rfl
    · rw [h1]; simp [mix]
    · intro ho
      rcases h with h | h
      · rw [h.1] at ho; simp at ho
      · rw [h] at ho; simp at ho
  · cases h1
    rw [ha] at h2
    rw [hb] at h3
    cases h2; cases h3
    obtain ⟨ws, l1, l2, l3, l4, l5, l6⟩ := h6.log
    rcases h7 with ⟨rfl, hp, rfl⟩ | ⟨rfl, rfl, _⟩ | ⟨rfl, h⟩
    · refine ⟨m, p, ws, h5, by simp [l1], l2, l3, l4, ?_, h6.data, h6.rest, h6.dir, h6.next, l6, fun _ => hp, fun _ => h4⟩
      show Results _ ws (w1.data dst)
      rw [h6.data]; exact l5
    · exact ⟨m, p, ws, h5, by simp [l1], l2, l3, l4, by rw [h6.data]; exact l5, h6.data, h6.rest, h6.dir, h6.next, l6, by simp, fun _ => h4⟩
    · refine ⟨m, p, ws, h5, ?_, l2, l3, l4, by rw [h6.data]; exact l5, h6.data, h6.rest, h6.dir, h6.next, l6, ?_, fun _ => h4⟩
      · rw [if_neg (by rcases h with h | ⟨h, _⟩ <;> rw [h] <;> simp)]
        simp [l1]
      · rcases h with h | ⟨h, _⟩ <;> rw [h] <;> simp

theorem writesOf_map {ws : List (Nat × Bytes)} {i : Nat} : writesOf (ws.map (fun e => Event.write i e.1 e.2)) = ws := by
  induction ws with
  | nil => rfl
  | cons e ws ih => simp [writesOf, ih]

/-- **C51**: a run of patchdd, whatever its outcome, writes a position only if within the position's block there is a
difference at it or before it; no position is written twice, and what is written is the source.  A successful run writes
all such positions of the source's length. -/
theorem C51_writes_from_first_difference (T : Nat) (hT : 0 < T) (a b : Bytes) (rest : List Bytes) (w w' : World) (o : Res Bool)
    (hrun : patchdd T (a :: b :: rest) w = (o, w')) (src dst : Nat) (ha : w.dir a = some src) (hb : w.dir b = some dst) :
    ∃ evs, w'.log = w.log ++ evs ∧ (∀ i pos d, Event.write i pos d ∈ evs → i = dst ∧ d = slice (w.data src) pos d.length) ∧ Upwards (writesOf evs) ∧
      (∀ pos, Covered (writesOf evs) pos → pos < (w.data src).length ∧ Differs T (w.data src) (w.data dst) pos) ∧
      (o = .ok true → ∀ pos, pos < (w.data src).length → Differs T (w.data src) (w.data dst) pos → Covered (writesOf evs) pos) := by
  obtain ⟨m, p, ws, h1, h2, h3, h4, h5, h6, _, _, _, _, _, h11, _⟩ := patch_events hT hrun ha hb
  have hw : writesOf (ws.map (fun e => Event.write dst e.1 e.2) ++ (if o = .ok true then [Event.fsync dst, Event.skipped m] else [])) = ws := by
    rw [writesOf_append, writesOf_map]
    split <;> simp [writesOf]
  refine ⟨_, by rw [h2, List.append_assoc], ?_, by rw [hw]; exact h3, ?_, ?_⟩
  · intro i pos d hm
    rcases List.mem_append.1 hm with hm | hm
    · obtain ⟨e, he, heq⟩ := List.mem_map.1 hm
      cases heq
      exact ⟨rfl, (h4 e he).1⟩
    · split at hm <;> simp at hm
  · rw [hw]
    intro pos hc
    have := (h5 pos).1 hc
    exact ⟨by omega, this.2⟩
  · rw [hw]
    intro ho pos hp hd
    exact (h5 pos).2 ⟨by rw [h11 ho]; exact hp, hd⟩

/-- **C51**, patching twice: if the destination already starts with the source, nothing is written. -/
theorem C51_second_run (T : Nat) (hT : 0 < T) (a b : Bytes) (rest : List Bytes) (w w' : World) (o : Res Bool)
    (hrun : patchdd T (a :: b :: rest) w = (o, w')) (src dst : Nat) (ha : w.dir a = some src) (hb : w.dir b = some dst)
    (hpre : w.data src <+: w.data dst) : ∃ evs, w'.log = w.log ++ evs ∧ writesOf evs = [] ∧ w'.data = w.data := by
  obtain ⟨m, p, ws, h1, h2, h3, h4, h5, h6, h7, h8, _⟩ := patch_events hT hrun ha hb
  have hws : ws = [] := by
    cases ws with
    | nil => rfl
    | cons e ws =>
      exfalso
      have g := h4 e (by simp)
      have hl := List.length_pos_iff.2 g.2.1
      obtain ⟨_, q, _, q2, q3⟩ := (h5 e.1).1 ⟨e, by simp, Nat.le_refl _, by omega⟩
      apply q3
      obtain ⟨t, ht⟩ := hpre
      rw [← ht, List.getElem?_append_left (by omega)]
  subst hws
  refine ⟨_, by rw [h2, List.append_assoc], ?_, ?_⟩
  · simp only [List.map_nil, List.nil_append]
    split <;> rfl
  · funext i
    by_cases hi : i = dst
    · subst hi; exact h6
    · exact h8 i hi

/-! ### C52 -/

/-- **C52**, crash consistency: after any run, in particular a killed one, each byte of the destination is its old value or the
source's byte (up to some position the latter, from there on the former), its length and all other files are as before. -/
theorem C52_crash_consistency (T : Nat) (hT : 0 < T) (a b : Bytes) (rest : List Bytes) (w w' : World) (o : Res Bool)
    (hrun : patchdd T (a :: b :: rest) w = (o, w')) (src dst : Nat) (ha : w.dir a = some src) (hb : w.dir b = some dst) :
    (w'.data dst).length = (w.data dst).length ∧ (∀ i, i ≠ dst → w'.data i = w.data i) ∧ w'.dir = w.dir ∧ w'.next = w.next ∧
    ∃ p : Nat, ∀ i : Nat, (w'.data dst)[i]? = if i < p then (w.data src)[i]? else (w.data dst)[i]? := by
  obtain ⟨m, p, ws, h1, h2, h3, h4, h5, h6, h7, h8, h9, h10, _, _, h12⟩ := patch_events hT hrun ha hb
  refine ⟨?_, h8, h9, h10, p, fun i => by rw [h7, mix_getElem? h1]⟩
  rw [h7]
  by_cases hp : p = 0
  · subst hp; simp [mix]
  · exact mix_length h1 (by have := h12 hp; omega)

theorem writesTo_append {i : Nat} {x y : List Event} : writesTo i (x ++ y) = writesTo i x ++ writesTo i y := by
  induction x with
  | nil => rfl
  | cons e x ih =>
    cases e <;> simp only [List.cons_append, writesTo, ih]
    split <;> simp

theorem writesTo_map {ws : List (Nat × Bytes)} {i : Nat} : writesTo i (ws.map (fun e => Event.write i e.1 e.2)) = ws := by
  induction ws with
  | nil => rfl
  | cons e ws ih => simp [writesTo, ih]

/-- **C52**, durability: after success a power cut can only leave the new contents, whatever writes had been left pending. -/
theorem C52_durable (T : Nat) (hT : 0 < T) (a b : Bytes) (rest : List Bytes) (w w' : World)
    (hrun : patchdd T (a :: b :: rest) w = (.ok true, w')) (dst : Nat) (hb : w.dir b = some dst) :
    ∃ evs, w'.log = w.log ++ evs ∧ ∀ g, Survives dst (w.data dst) evs g → g = w'.data dst := by
  obtain ⟨a', b', rest', src, dst', h1, h2, h3, _⟩ := C50_copies T hT _ w w' hrun
  cases h1
  rw [hb] at h3
  cases h3
  obtain ⟨m, p, ws, _, h2, h3, h4, h5, h6, _⟩ := patch_events hT hrun h2 hb
  refine ⟨_, by rw [h2, List.append_assoc], ?_⟩
  rintro g ⟨early, late, kept, e1, e2, e3, e4, e5⟩
  simp only [if_true] at e1
  have hlate : writesTo dst late = [] := by
    rcases List.append_eq_append_iff.1 e1 with ⟨bs, -, hl⟩ | ⟨bs, -, hl⟩
    · match bs, hl with
      | [], hl => exact absurd (by rw [← List.nil_append late, ← hl]; simp) e2
      | [_], hl => simp only [List.cons_append, List.nil_append, List.cons.injEq] at hl; rw [← hl.2]; rfl
      | [_, _], hl => simp only [List.cons_append, List.nil_append, List.cons.injEq] at hl; rw [← hl.2.2]; rfl
      | _ :: _ :: _ :: _, hl => simp at hl
    · exact absurd (by rw [hl]; simp) e2
  rw [hlate] at e4
  have hk : kept = [] := by simpa using e4
  subst hk
  have e6 := congrArg (writesTo dst) e1
  rw [writesTo_append, writesTo_append, writesTo_map, hlate, List.append_nil] at e6
  simp only [writesTo, List.append_nil] at e6
  rw [← e6, List.append_nil] at e5
  exact results_unique e5 h6

/-! ### A case -/

/-- A source of 10 bytes and a destination of 13. -/
def patchWorld (sys : List Sys) : World where
  data := fun i => if i = 1 then [1, 2, 3, 4, 5, 6, 7, 8, 9, 10] else if i = 2 then [1, 2, 3, 4, 5, 0, 7, 0, 9, 10, 11, 12, 13] else []
  kind := fun i => if i = 2 then .blk else .reg
  dir := fun p => if p = str "s" then some 1 else if p = str "d" then some 2 else none
  next := 3
  sys := sys
  mem := []
  net := []
  log := []

/-- Blocks of 4 bytes: the second is written from its second byte on, the others not at all. -/
example : (patchdd 4 [str "s", str "d"] (patchWorld (List.replicate 30 (.some 2)))).1 = .ok true ∧
    (patchdd 4 [str "s", str "d"] (patchWorld (List.replicate 30 (.some 2)))).2.data 2 = [1, 2, 3, 4, 5, 6, 7, 8, 9, 10, 11, 12, 13] ∧
    (patchdd 4 [str "s", str "d"] (patchWorld (List.replicate 30 (.some 2)))).2.log = [.write 2 5 [6, 7, 8], .fsync 2, .skipped 7] := by
  decide +kernel

/-- Killed in the middle of the write. -/
example : (patchdd 4 [str "s", str "d"] (patchWorld (List.replicate 12 (.some 2) ++ [.some 1]))).1 = .stop .killed ∧
    (patchdd 4 [str "s", str "d"] (patchWorld (List.replicate 12 (.some 2) ++ [.some 1]))).2.data 2 = [1, 2, 3, 4, 5, 6, 7, 0, 9, 10, 11, 12, 13] := by
  decide +kernel

/-- The destination is smaller. -/
example : (patchdd 4 [str "d", str "s"] (patchWorld (List.replicate 30 (.some 2)))).1 = .ok false := by decide +kernel

end Csn.Props
