import Verif.Spec.PatchRace
import Verif.Proof.Shared
import Verif.Proof.Patchdd
/-
Proofs about patchdd when other processes change its files (C90).
-/
namespace Csn.PatchRace
open Csn Csn.Props Csn.Proof

theorem fit_length (n : Nat) (d : Bytes) : (fit n d).length = n := by
  unfold fit
  rw [List.length_take, List.length_append, List.length_replicate]
  omega

theorem round_of {n off : Nat} {s d : Bytes} {k : Nat} {ok : Bool} (hk : ok = true → n ≤ k) :
    Round off (fit n s) (fit n d) (off + memcmpOffset (fit n s) (fit n d)) ((((fit n s).drop (memcmpOffset (fit n s) (fit n d))).take (n - memcmpOffset (fit n s) (fit n d))).take k) ok := by
  have hl : (fit n s).length = (fit n d).length := by rw [fit_length, fit_length]
  obtain ⟨h1, h2, h3⟩ := memcmpOffset_spec (fit n s) (fit n d) hl
  have e : off + memcmpOffset (fit n s) (fit n d) - off = memcmpOffset (fit n s) (fit n d) := by omega
  refine ⟨hl, by omega, by omega, fun i hi => h2 i (by omega), fun hi => ?_, ⟨min k (n - memcmpOffset (fit n s) (fit n d)), ?_⟩, fun ho => ?_⟩
  · rw [e]; exact h3 (by omega)
  · rw [e, List.take_take]
  · have := hk ho
    rw [e, List.take_take, List.take_of_length_le]
    rw [List.length_drop, fit_length]
    omega

theorem loop_rounds {T size : Nat} (hT : 0 < T) : ∀ (fuel off : Nat) (ans : List Ans) (log : List Ev), Rounds T size off true log → off ≤ size → size < off + fuel →
    ((loop T size fuel off ans).1 = .ok true ∧ Rounds T size size true (log ++ (loop T size fuel off ans).2.1)) ∨
    (((loop T size fuel off ans).1 = .ok false ∨ (loop T size fuel off ans).1 = .stop .killed) ∧ ∃ pos, Rounds T size pos false (log ++ (loop T size fuel off ans).2.1))
  | 0, off, ans, log, _, _, h => by omega
  | fuel + 1, off, ans, log, hr, hle, hfu => by
    unfold loop
    by_cases hlt : off < size
    · rw [if_pos hlt]
      have hln : ∀ d, (fit (min (size - off) T) d).length = min (size - off) T := fit_length _
      split
      · exact Or.inr ⟨Or.inl rfl, off, by simpa using hr.cut⟩
      · exact Or.inr ⟨Or.inl rfl, off, hr.cutSrc hlt (hln _)⟩
      · next s d r =>
        dsimp only
        split
        · next k r =>
          have hrd := hr.round hlt (hln s) (round_of (off := off) (s := s) (d := d) (n := min (size - off) T) (ok := true) (k := min (size - off) T) (fun _ => Nat.le_refl _))
          rw [hln, List.take_of_length_le (by rw [List.length_take]; omega)] at hrd
          have := loop_rounds hT fuel (off + min (size - off) T) r _ hrd (by omega) (by omega)
          revert this
          generalize loop T size fuel (off + min (size - off) T) r = y
          obtain ⟨x, evs, r'⟩ := y
          intro this
          simpa using this
        · next k r => exact Or.inr ⟨Or.inl rfl, off, hr.cutPut hlt (hln s) (round_of (by simp))⟩
        · next k r => exact Or.inr ⟨Or.inr rfl, off, hr.cutPut hlt (hln s) (round_of (by simp))⟩
        · exact Or.inr ⟨Or.inr rfl, off, hr.cutDst hlt (hln s) (by rw [hln, hln])⟩
      · exact Or.inr ⟨Or.inr rfl, off, hr.cutSrc hlt (hln _)⟩
      · exact Or.inr ⟨Or.inr rfl, off, by simpa using hr.cut⟩
    · rw [if_neg hlt]
      have : off = size := by omega
      subst this
      exact Or.inl ⟨rfl, by simpa using hr⟩

theorem main_steps {T : Nat} (hT : 0 < T) (ans : List Ans) : PatchSteps T (main T ans).1 (main T ans).2 := by
  unfold main
  split
  · next n k r =>
    by_cases hk : k < n
    · rw [if_pos hk]
      exact .part (pos := 0) (Rounds.start).cut (Or.inl rfl)
    · rw [if_neg hk]
      have := loop_rounds (size := n) hT (n + 1) 0 r [] .start (by omega) (by omega)
      generalize loop T n (n + 1) 0 r = y at this ⊢
      obtain ⟨x, evs, r'⟩ := y
      simp only [List.nil_append] at this
      rcases this with ⟨rfl, h⟩ | ⟨hx, pos, h⟩
      · unfold finish
        dsimp only
        split
        · exact .done h
        · exact .part (by simpa using h.cut) (Or.inl rfl)
        · exact .part (by simpa using h.cut) (Or.inr rfl)
      · rcases hx with rfl | rfl
        · exact .part h (Or.inl rfl)
        · exact .part h (Or.inr rfl)
  · exact .part (pos := 0) (Rounds.start).cut (Or.inl rfl)
  · exact .part (pos := 0) (Rounds.start).cut (Or.inr rfl)
  · exact .none (Or.inl rfl)
  · exact .none (Or.inl rfl)
  · exact .none (Or.inl rfl)
  · exact .none (Or.inr rfl)

theorem Rounds.put {T n pos : Nat} {g : Bool} {log : List Ev} (h : Rounds T n pos g log) {o : Nat} {d : Bytes} {ok : Bool} (hm : .put o d ok ∈ log) :
    ∃ off s t, .src off s ∈ log ∧ .dst off t ∈ log ∧ Round off s t o d ok ∧ off + s.length ≤ n := by
  induction h with
  | start => simp at hm
  | @round pos log s t d' o' h1 h2 h3 h4 ih =>
    rcases List.mem_append.1 hm with hm | hm
    · obtain ⟨off, s, t, g1, g2, g3⟩ := ih hm
      exact ⟨off, s, t, List.mem_append_left _ g1, List.mem_append_left _ g2, g3⟩
    · simp at hm
      obtain ⟨rfl, rfl, rfl⟩ := hm
      exact ⟨pos, s, t, by simp, by simp, h4, by omega⟩
  | @cutPut pos log s t d' o' h1 h2 h3 h4 ih =>
    rcases List.mem_append.1 hm with hm | hm
    · obtain ⟨off, s, t, g1, g2, g3⟩ := ih hm
      exact ⟨off, s, t, List.mem_append_left _ g1, List.mem_append_left _ g2, g3⟩
    · simp at hm
      obtain ⟨rfl, rfl, rfl⟩ := hm
      exact ⟨pos, s, t, by simp, by simp, h4, by omega⟩
  | @cutDst pos log s t h1 h2 h3 h4 ih =>
    rcases List.mem_append.1 hm with hm | hm
    · obtain ⟨off, s, t, g1, g2, g3⟩ := ih hm
      exact ⟨off, s, t, List.mem_append_left _ g1, List.mem_append_left _ g2, g3⟩
    · simp at hm
  | @cutSrc pos log s h1 h2 h3 ih =>
    rcases List.mem_append.1 hm with hm | hm
    · obtain ⟨off, s, t, g1, g2, g3⟩ := ih hm
      exact ⟨off, s, t, List.mem_append_left _ g1, List.mem_append_left _ g2, g3⟩
    · simp at hm
  | cut _ ih => exact ih hm

theorem Rounds.covers {T n pos : Nat} {g : Bool} {log : List Ev} (h : Rounds T n pos g log) : ∀ k < pos, ∃ off s t o d, .src off s ∈ log ∧ .dst off t ∈ log ∧ .put o d true ∈ log ∧
    Round off s t o d true ∧ off ≤ k ∧ k < off + s.length := by
  have up : ∀ {log log' : List Ev} {k : Nat}, (∃ off s t o d, .src off s ∈ log ∧ .dst off t ∈ log ∧ .put o d true ∈ log ∧ Round off s t o d true ∧ off ≤ k ∧ k < off + s.length) →
      ∃ off s t o d, .src off s ∈ log ++ log' ∧ .dst off t ∈ log ++ log' ∧ .put o d true ∈ log ++ log' ∧ Round off s t o d true ∧ off ≤ k ∧ k < off + s.length := by
    rintro log log' k ⟨off, s, t, o, d, h1, h2, h3, h4⟩
    exact ⟨off, s, t, o, d, List.mem_append_left _ h1, List.mem_append_left _ h2, List.mem_append_left _ h3, h4⟩
  induction h with
  | start => intro k hk; omega
  | @round pos log s t d' o' h1 h2 h3 h4 ih =>
    intro k hk
    by_cases hp : k < pos
    · exact up (ih k hp)
    · exact ⟨pos, s, t, o', d', by simp, by simp, by simp, h4, by omega, hk⟩
  | cutPut _ _ _ _ ih => exact fun k hk => up (ih k hk)
  | cutDst _ _ _ _ ih => exact fun k hk => up (ih k hk)
  | cutSrc _ _ _ ih => exact fun k hk => up (ih k hk)
  | cut _ ih => exact ih

theorem PatchSteps.put {T : Nat} {x : Res Bool} {log : List Ev} (h : PatchSteps T x log) {o : Nat} {d : Bytes} {ok : Bool} (hm : .put o d ok ∈ log) :
    ∃ n off s t, .sized n ∈ log ∧ .src off s ∈ log ∧ .dst off t ∈ log ∧ Round off s t o d ok ∧ off + s.length ≤ n := by
  cases h with
  | @done n log h =>
    simp at hm
    obtain ⟨off, s, t, g1, g2, g3⟩ := Rounds.put h hm
    exact ⟨n, off, s, t, by simp, by simp [g1], by simp [g2], g3⟩
  | @part n pos log x h hx =>
    simp at hm
    obtain ⟨off, s, t, g1, g2, g3⟩ := Rounds.put h hm
    exact ⟨n, off, s, t, by simp, by simp [g1], by simp [g2], g3⟩
  | none => simp at hm

theorem PatchSteps.covers {T : Nat} {log : List Ev} (h : PatchSteps T (.ok true) log) : ∃ n, .sized n ∈ log ∧ .flushed ∈ log ∧
    ∀ k < n, ∃ off s t o d, .src off s ∈ log ∧ .dst off t ∈ log ∧ .put o d true ∈ log ∧ Round off s t o d true ∧ off ≤ k ∧ k < off + s.length := by
  cases h with
  | @done n log h =>
    refine ⟨n, by simp, by simp, fun k hk => ?_⟩
    obtain ⟨off, s, t, o, d, h1, h2, h3, h4⟩ := Rounds.covers h k hk
    exact ⟨off, s, t, o, d, by simp [h1], by simp [h2], by simp [h3], h4⟩
  | part h hx => rcases hx with hx | hx <;> cases hx
  | none hx => rcases hx with hx | hx <;> cases hx

/-! ### Histories -/

section
variable {img f : Bytes} {g : Trace}

/-- A byte that was read as in the image, or written, stays as in the image. -/
theorem byte_right (hpt : Race.PutsRight img g) (hco : Coherent f g) {p k : Nat} {x : UInt8} (hx : img[k]? = some x) {a : Acc} (hm : a ∈ doneBy p g)
    (ha : a = .get k x ∨ ∃ z, a = .put k z) : (contents f g)[k]? = some x := by
  obtain ⟨u, v, huv⟩ := List.append_of_mem hm
  obtain ⟨g1, g2, hg, -⟩ := Race.doneBy_split huv
  have hp2 : Race.PutsRight img g2 := fun p o b hm => hpt p o b (by rw [hg]; exact List.mem_append_right _ (List.mem_cons_of_mem _ hm))
  rw [hg, Race.contents_append]
  rw [hg, Race.coherent_append] at hco
  rcases ha with rfl | ⟨z, rfl⟩
  · exact Race.contents_keeps (h := g2) hx hp2 hco.2.1
  · have hz := hpt p k z (by rw [hg]; simp)
    rw [hx] at hz
    cases hz
    exact Race.contents_keeps (h := g2) hx hp2 (Race.writeAt_one _ _ _)

theorem round_byte {off o i : Nat} {s t d : Bytes} {ok : Bool} {b : UInt8} (h : Round off s t o d ok) (hb : d[i]? = some b) : s[o + i - off]? = some b := by
  obtain ⟨k, hk⟩ := h.data
  have h1 := h.from_
  rw [hk, List.getElem?_take] at hb
  split at hb
  · rw [List.getElem?_drop] at hb
    rw [← hb]
    congr 1
    omega
  · cases hb

/-- What patchdd writes is as in the image, if the source is. -/
theorem patch_put {T : Nat} {ans : List Ans} {as : List Acc} (hT : 0 < T) (hs : ∀ off d, .src off d ∈ (main T ans).2 → ∀ (i : Nat) (x : UInt8), d[i]? = some x → img[off + i]? = some x)
    (hp : Performs patchAccesses (main T ans).2 as) {off : Nat} {b : UInt8} (hm : .put off b ∈ as) : img[off]? = some b := by
  obtain ⟨x, y, hxy⟩ := List.append_of_mem hm
  obtain ⟨l1, e, l2, x1, u, h1, -, -, h4⟩ := hp.split hxy
  have hem : e ∈ (main T ans).2 := by rw [h1]; simp
  cases e with
  | sized => simp [patchAccesses] at h4
  | src => simp [patchAccesses] at h4
  | flushed => simp [patchAccesses] at h4
  | dst o d =>
    obtain ⟨i, b', hi, hb⟩ := Race.mem_byBytes (f := Acc.get) h4
    simp at hb
  | put o d ok =>
    obtain ⟨i, b', hi, hb⟩ := Race.mem_byBytes (f := Acc.put) h4
    simp only [Acc.put.injEq] at hb
    obtain ⟨rfl, rfl⟩ := hb
    obtain ⟨n, off, s, t, -, g2, -, g4, -⟩ := PatchSteps.put (main_steps hT ans) hem
    have hr := round_byte g4 hi
    have := hs off s g2 _ _ hr
    have hle := g4.from_
    rw [show off + (o + i - off) = o + i by omega] at this
    exact this

/-- After a successful run of patchdd, all is as in the image. -/
theorem patch_done {T : Nat} {ans : List Ans} {p : Nat} {as : List Acc} (hT : 0 < T) (hs : ∀ off d, .src off d ∈ (main T ans).2 → ∀ (i : Nat) (x : UInt8), d[i]? = some x → img[off + i]? = some x)
    (hok : (main T ans).1 = .ok true) (hp : Performs patchAccesses (main T ans).2 as) (has : ∀ a ∈ as, a ∈ doneBy p g) (hpt : Race.PutsRight img g) (hco : Coherent f g) :
    ∃ n, .sized n ∈ (main T ans).2 ∧ ∀ k < n, ∃ x, img[k]? = some x ∧ (contents f g)[k]? = some x := by
  have hst := main_steps hT ans
  rw [hok] at hst
  obtain ⟨n, h1, -, h2⟩ := PatchSteps.covers hst
  refine ⟨n, h1, fun k hk => ?_⟩
  obtain ⟨off, s, t, o, d, g1, g2, g3, g4, g5, g6⟩ := h2 k hk
  obtain ⟨x, hx⟩ : ∃ x, s[k - off]? = some x := ⟨_, List.getElem?_eq_getElem (by omega)⟩
  have hi := hs off s g1 _ _ hx
  rw [show off + (k - off) = k by omega] at hi
  refine ⟨x, hi, ?_⟩
  by_cases hko : k < o
  · have ht : t[k - off]? = some x := by rw [← g4.same (k - off) (by omega), hx]
    have hacc := Race.byBytes_mem (f := Acc.get) (off := off) ht
    rw [show off + (k - off) = k by omega] at hacc
    exact byte_right hpt hco hi (has _ (hp.mem g2 hacc)) (Or.inl rfl)
  · have hd : d[k - o]? = some x := by
      rw [g4.all rfl, List.getElem?_drop, ← hx]
      congr 1
      have := g4.from_
      omega
    have hacc := Race.byBytes_mem (f := Acc.put) (off := o) hd
    rw [show o + (k - o) = k by omega] at hacc
    exact byte_right hpt hco hi (has _ (hp.mem g3 hacc)) (Or.inr ⟨x, rfl⟩)

end

end Csn.PatchRace
