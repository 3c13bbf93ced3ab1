import Verif.Proof.PatchRaceSim
import Verif.Props.Patchdd
import Verif.Props.Shared
/-
C90: patchdd when other processes change its files; csn and patchdd side by side.
-/
namespace Csn.Props
open Csn.Race (PutsRight contents_append contents_keeps coherent_append doneBy_append finished_right put_right slice_get)
open Csn PatchRace
open Csn.Spec (slice Regular)

/-- **C90**: whatever happens to its files, patchdd works in rounds, one after the other: it reads a block of the source and the one of
the destination and writes the source's bytes from the first difference on; it succeeds only after all rounds and the flush. -/
theorem C90_rounds (T : Nat) (hT : 0 < T) (ans : List PatchRace.Ans) : PatchSteps T (PatchRace.main T ans).1 (PatchRace.main T ans).2 := main_steps hT ans

/-- **C90**: every byte that patchdd writes is one that it has read from the source, at the same position. -/
theorem C90_source (T : Nat) (hT : 0 < T) (ans : List PatchRace.Ans) (o i : Nat) (d : Bytes) (ok : Bool) (b : UInt8) (hm : .put o d ok ∈ (PatchRace.main T ans).2)
    (hb : d[i]? = some b) : ∃ off s, .src off s ∈ (PatchRace.main T ans).2 ∧ off ≤ o + i ∧ s[o + i - off]? = some b := by
  obtain ⟨n, off, s, t, -, g2, -, g4, -⟩ := PatchSteps.put (main_steps hT ans) hm
  exact ⟨off, s, g2, by have := g4.from_; omega, round_byte g4 hb⟩

/-- **C90**: when patchdd reports success, every position of the source was written with what was read from the source there, or the
same was read from both files. -/
theorem C90_success (T : Nat) (hT : 0 < T) (ans : List PatchRace.Ans) (hok : (PatchRace.main T ans).1 = .ok true) :
    ∃ n, .sized n ∈ (PatchRace.main T ans).2 ∧ .flushed ∈ (PatchRace.main T ans).2 ∧ ∀ k < n, ∃ off s x, .src off s ∈ (PatchRace.main T ans).2 ∧ off ≤ k ∧ s[k - off]? = some x ∧
      ((∃ t, .dst off t ∈ (PatchRace.main T ans).2 ∧ t[k - off]? = some x) ∨ ∃ o d, .put o d true ∈ (PatchRace.main T ans).2 ∧ o ≤ k ∧ d[k - o]? = some x) := by
  have hst := main_steps hT ans
  rw [hok] at hst
  obtain ⟨n, h1, h2, h3⟩ := PatchSteps.covers hst
  refine ⟨n, h1, h2, fun k hk => ?_⟩
  obtain ⟨off, s, t, o, d, g1, g2, g3, g4, g5, g6⟩ := h3 k hk
  obtain ⟨x, hx⟩ : ∃ x, s[k - off]? = some x := ⟨_, List.getElem?_eq_getElem (by omega)⟩
  refine ⟨off, s, x, g1, g5, hx, ?_⟩
  by_cases hko : k < o
  · exact Or.inl ⟨t, g2, by rw [← g4.same (k - off) (by omega), hx]⟩
  · refine Or.inr ⟨o, d, g3, by omega, ?_⟩
    rw [g4.all rfl, List.getElem?_drop, ← hx]
    congr 1
    have := g4.from_
    omega

section
variable {H : Bytes → Id} {works : Nat → Work} {f img : Bytes} {h : Trace}

theorem all_puts_right (hfor : ∀ p, (works p).For H img) (ht : AllTogether H works f h) : ∀ (n : Nat) (g g2 : Trace), g.length = n → h = g ++ g2 → PutsRight img g := by
  intro n
  induction n with
  | zero => intro g g2 hn _; simp [List.length_eq_zero_iff.1 hn, PutsRight]
  | succ n ih =>
    intro g g2 hn hh
    rcases List.eq_nil_or_concat g with rfl | ⟨g', x, rfl⟩
    · simp at hn
    · rw [List.concat_eq_append] at hn hh ⊢
      have hg := ih g' (x :: g2) (by simpa using hn) (by rw [hh]; simp)
      intro p off b hm
      rcases List.mem_append.1 hm with hm | hm
      · exact hg p off b hm
      · simp at hm
        subst hm
        have hh' : h = g' ++ (p, .put off b) :: g2 := by rw [hh]; simp
        have hd := ht.does p
        have hf := hfor p
        revert hd hf
        cases works p with
        | csn j =>
          intro hd hf
          exact (put_right (p := p) hg (by rw [← hh']; exact ht.coherent) (by rw [← hh']; exact hd) (job_spec H j hf.1).1 hf.2.1 hf.2.2).1
        | patch T ans =>
          intro hd hf
          exact patch_put hf.1 hf.2 hd (by rw [hh', doneBy_append]; simp [doneBy])

/-- **C90**: however many runs of csn and patchdd work on a target at the same time, for the same image: every byte that one of them writes
is the one of the image. -/
theorem C90_writes (hfor : ∀ p, (works p).For H img) (ht : AllTogether H works f h) (p off : Nat) (b : UInt8) (hw : (p, .put off b) ∈ h) : img[off]? = some b :=
  all_puts_right hfor ht _ h [] rfl (by simp) p off b hw

/-- **C90**: what is as in the image stays so. -/
theorem C90_stays (hfor : ∀ p, (works p).For H img) (ht : AllTogether H works f h) (h1 h2 h3 : Trace) (hh : h = h1 ++ h2 ++ h3) (off : Nat) (b : UInt8) (hb : img[off]? = some b)
    (h0 : (contents f h1)[off]? = some b) : (contents f (h1 ++ h2))[off]? = some b := by
  rw [contents_append]
  exact contents_keeps hb (fun p o x hm => all_puts_right hfor ht _ (h1 ++ h2) h3 rfl hh p o x (List.mem_append_right _ hm)) h0

theorem doneBy_idle {α : Type} {p : Nat} : ∀ {g : List (Nat × α)}, (∀ x ∈ g, x.1 ≠ p) → doneBy p g = []
  | [], _ => rfl
  | (q, a) :: g, hg => by rw [doneBy, if_neg (hg _ List.mem_cons_self), doneBy_idle fun x hx => hg x (List.mem_cons_of_mem _ hx)]

/-- **C90**: as soon as a run of csn has succeeded, the target has all regions of its index, whatever the others do then or have done
before. -/
theorem C90_csn (hfor : ∀ p, (works p).For H img) (ht : AllTogether H works f h) (p : Nat) (j : Job) (hj : works p = .csn j) (hok : (j.run H).1 = .ok true)
    (h1 h2 : Trace) (hh : h = h1 ++ h2) (hp : ∀ x ∈ h2, x.1 ≠ p) (s : Seg) (hs : s ∈ j.segs) (hn : s.len ≠ 0) :
    slice (contents f h1) s.off s.len = slice img s.off s.len ∧ H (slice (contents f h1) s.off s.len) = s.id := by
  have hf := hfor p
  have hd := ht.does p
  rw [hj] at hf hd
  obtain ⟨f1, f2, f3⟩ := hf
  have hk := job_spec H j f1
  rw [hh, doneBy_append, doneBy_idle hp, List.append_nil] at hd
  have hc := ht.coherent
  rw [hh, coherent_append] at hc
  have key : slice (contents f h1) s.off s.len = slice img s.off s.len := by
    have hr := finished_right (p := p) (all_puts_right hfor ht _ h1 h2 rfl hh) hc.1 hd (fun a ha => ha) hk.1.sound f2 (by rw [hk.2.1 hok]; exact hs) hs hn
    refine List.ext_getElem? fun i => ?_
    by_cases hi : i < s.len
    · obtain ⟨x, x1, x2⟩ := hr i hi
      rw [slice_get hi, slice_get hi, x1, x2]
    · rw [List.getElem?_eq_none (by unfold slice; simp; omega), List.getElem?_eq_none (by unfold slice; simp; omega)]
  exact ⟨key, by rw [key]; exact (f2 s hs hn).2.1⟩

/-- **C90**: as soon as a run of patchdd has succeeded, the target starts with the image up to the size of the run's source, whatever
the others do then or have done before. -/
theorem C90_patchdd (hfor : ∀ p, (works p).For H img) (ht : AllTogether H works f h) (p T : Nat) (ans : List PatchRace.Ans) (hj : works p = .patch T ans)
    (hok : (PatchRace.main T ans).1 = .ok true) (h1 h2 : Trace) (hh : h = h1 ++ h2) (hp : ∀ x ∈ h2, x.1 ≠ p) :
    ∃ n, .sized n ∈ (PatchRace.main T ans).2 ∧ n ≤ img.length ∧ (contents f h1).take n = img.take n := by
  have hf := hfor p
  have hd := ht.does p
  rw [hj] at hf hd
  rw [hh, doneBy_append, doneBy_idle hp, List.append_nil] at hd
  have hc := ht.coherent
  rw [hh, coherent_append] at hc
  obtain ⟨n, g1, g2⟩ := patch_done (p := p) (f := f) (g := h1) hf.1 hf.2 hok hd (fun a ha => ha) (all_puts_right hfor ht _ h1 h2 rfl hh) hc.1
  refine ⟨n, g1, ?_, List.ext_getElem? fun k => ?_⟩
  · refine Nat.le_of_not_lt fun hlt => ?_
    obtain ⟨x, hx, -⟩ := g2 img.length hlt
    simp at hx
  · rw [List.getElem?_take, List.getElem?_take]
    split
    · next hk => obtain ⟨x, x1, x2⟩ := g2 k hk; rw [x1, x2]
    · rfl

end

theorem patch_straight : ∀ log : List PatchRace.Ev, Performs patchAccesses log (log.flatMap patchAccesses)
  | [] => .done
  | e :: log => by
    rw [List.flatMap_cons]
    exact .step (List.Perm.refl _) (patch_straight log)

/-- C90: the runs of Model/Patchdd are among these: as long as nobody else changes the files, the result and what becomes of the destination
are the same; and if the source is another file, it is the image. -/
theorem C90_covers {T : Nat} (hT : 0 < T) (args : List Bytes) (w : World) :
    ∃ ans h, (PatchRace.main T ans).1 = orKilled (patchdd T args w).1 ∧ ∀ a b rest src dst, args = a :: b :: rest → w.dir a = some src → w.dir b = some dst →
      (∀ H, AllTogether H (fun p => if p = 0 then .patch T ans else .csn ⟨0, [], false, [], []⟩) (w.data dst) h) ∧ contents (w.data dst) h = (patchdd T args w).2.data dst ∧
      (src ≠ dst → ∀ H, (Work.patch T ans).For H (w.data src)) := by
  have key := same_main (T := T) args w
  have hc := fun o w' (e : patchdd T args w = (o, w')) => patch_cases hT e
  unfold Proof.wp at key
  revert key hc
  generalize patchdd T args w = r
  obtain ⟨o, w'⟩ := r
  intro key hc
  have hsame : PatchSame T args w (orKilled o) w' := by
    cases o with
    | ok x => exact key
    | stop s =>
      rcases key with hd | key
      · subst hd
        rcases hc _ _ rfl with ⟨-, -, -, -, ⟨h, -⟩ | h⟩ | ⟨_, _, _, _, _, _, _, _, -, -, -, -, -, -, ⟨h, -⟩ | ⟨h, -⟩ | ⟨-, h | ⟨h, -⟩⟩⟩ <;> cases h
      · exact key
  obtain ⟨ans, evs, h1, h2⟩ := hsame
  refine ⟨ans, lone evs, by rw [h1], fun a b rest src dst e e1 e2 => ?_⟩
  have hs := h2 a b rest src dst e e1 e2
  refine ⟨fun H => ⟨fun p => ?_, hs.coherent⟩, hs.data, fun hne H => ⟨hT, ?_⟩⟩
  · have hdone : ∀ (p : Nat) (as : List Acc), doneBy p (as.map (Prod.mk 0)) = if p = 0 then as else [] := by
      intro p as
      induction as with
      | nil => simp [doneBy]
      | cons a as ih =>
        simp only [List.map_cons, doneBy, ih]
        by_cases hp : p = 0
        · simp [hp]
        · simp [hp, Ne.symm hp]
    unfold lone
    rw [hdone]
    by_cases hp : p = 0
    · rw [if_pos hp, if_pos hp]
      show Performs patchAccesses (PatchRace.main T ans).2 _
      rw [h1]
      exact patch_straight _
    · rw [if_neg hp, if_neg hp]
      exact .done
  · rw [h1]; exact hs.source hne

/-! ### Examples -/

/-- A run of patchdd with blocks of four bytes for a source of six; the destination has another byte at 1, and is as the source
from 4 on. -/
def patchAns : List PatchRace.Ans :=
  [.opened true, .opened true, .size (some 6), .size (some 8), .data (some [1, 2, 3, 4]), .data (some [1, 9, 3, 9]), .wrote true 0, .data (some [1, 2]), .data (some [1, 2]), .wrote true 0,
   .synced true]

example : PatchRace.main 4 patchAns = (.ok true, [.sized 6, .src 0 [1, 2, 3, 4], .dst 0 [1, 9, 3, 9], .put 1 [2, 3, 4] true, .src 4 [1, 2], .dst 4 [1, 2], .put 6 [] true, .flushed]) := by
  decide +kernel

/-- csn as in the example of C87, and patchdd. -/
def mixed : Nat → Work
  | 0 => .csn (pair 0)
  | 1 => .patch 4 patchAns
  | _ => .csn ⟨0, [], false, [], []⟩

def mixedHistory : Trace :=
  [(0, .put 0 1), (1, .get 0 1), (1, .get 1 9), (0, .put 1 2), (0, .put 2 3), (1, .get 2 3), (1, .get 3 9), (1, .put 1 2), (1, .put 2 3), (1, .put 3 4), (0, .put 3 4),
   (0, .put 4 1), (0, .put 5 2), (1, .get 4 1), (1, .get 5 2)]

theorem mixed_runs : (PatchRace.main 4 patchAns).1 = .ok true ∧ ((pair 0).run selfHash).2.flatMap accesses = doneBy 0 mixedHistory ∧
    (PatchRace.main 4 patchAns).2.flatMap patchAccesses = doneBy 1 mixedHistory ∧ Coherent [9, 9, 9, 9, 9, 9] mixedHistory := by decide +kernel

theorem mixed_together : AllTogether selfHash mixed [9, 9, 9, 9, 9, 9] mixedHistory where
  does p := by
    match p with
    | 0 =>
      show Performs accesses ((pair 0).run selfHash).2 _
      rw [← mixed_runs.2.1]
      exact performs_straight _
    | 1 =>
      show Performs patchAccesses (PatchRace.main 4 patchAns).2 _
      rw [← mixed_runs.2.2.1]
      exact patch_straight _
    | _ + 2 => exact .done
  coherent := mixed_runs.2.2.2

theorem mixed_for : ∀ p, (mixed p).For selfHash [1, 2, 3, 4, 1, 2] := fun p => match p with
  | 0 => ⟨sandwich_regular, sandwich_image _, seedsRight_remote (pair 0) sandwich_regular (by decide)⟩
  | 1 => by
    refine ⟨by decide, fun off d hm i x hx => ?_⟩
    have e : (PatchRace.main 4 patchAns).2 = [.sized 6, .src 0 [1, 2, 3, 4], .dst 0 [1, 9, 3, 9], .put 1 [2, 3, 4] true, .src 4 [1, 2], .dst 4 [1, 2], .put 6 [] true, .flushed] := by
      decide +kernel
    rw [e] at hm
    simp at hm
    rcases hm with ⟨rfl, rfl⟩ | ⟨rfl, rfl⟩
    · match i, hx with
      | 0, hx | 1, hx | 2, hx | 3, hx => exact hx
    · match i, hx with
      | 0, hx | 1, hx => exact hx
  | n + 2 => ⟨fun a x y b h => by simp at h, fun s hs => by simp at hs,
      seedsRight_remote ⟨0, [], false, [], []⟩ (fun a x y b h => by simp at h) (fun s hs => by simp at hs)⟩

/-- csn has finished before the last two steps of patchdd; then both are done. -/
example : (∀ s ∈ sandwich, s.len ≠ 0 → slice (contents [9, 9, 9, 9, 9, 9] (mixedHistory.take 13)) s.off s.len = slice [1, 2, 3, 4, 1, 2] s.off s.len) ∧
    ∃ n, .sized n ∈ (PatchRace.main 4 patchAns).2 ∧ n ≤ 6 ∧ (contents [9, 9, 9, 9, 9, 9] mixedHistory).take n = [1, 2, 3, 4, 1, 2].take n :=
  ⟨fun s hs hn => (C90_csn mixed_for mixed_together 0 (pair 0) rfl pair_runs.1 (mixedHistory.take 13) (mixedHistory.drop 13) (by decide) (by decide) s hs hn).1,
   C90_patchdd mixed_for mixed_together 1 4 patchAns rfl mixed_runs.1 mixedHistory [] (by simp) (by simp)⟩

/-- A second source is read, while somebody changes it: the destination gets the first half of the one and the second half of the other, and
patchdd reports success. -/
example : PatchRace.main 2 [.opened true, .opened true, .size (some 4), .size (some 4), .data (some [1, 2]), .data (some [0, 0]), .wrote true 0, .data (some [7, 8]), .data (some [0, 0]),
      .wrote true 0, .synced true] =
    (.ok true, [.sized 4, .src 0 [1, 2], .dst 0 [0, 0], .put 0 [1, 2] true, .src 2 [7, 8], .dst 2 [0, 0], .put 2 [7, 8] true, .flushed]) := by decide +kernel

end Csn.Props
