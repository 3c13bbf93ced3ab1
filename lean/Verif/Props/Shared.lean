import Verif.Proof.Shared
import Verif.Props.Race
/-
C87: several runs of csn on the same target at the same time.
-/
namespace Csn.Props
open Csn.Race
open Csn.Spec (slice Regular)

theorem job_spec (H : Bytes → Id) (j : Job) (hreg : Regular j.segs) :
    K ⟨H, j.kernel⟩ j.segs j.srcs (j.run H).2 ∧ ((j.run H).1 = .ok true → (j.run H).2.filterMap finished = j.segs) ∧
    (j.run H).1 ≠ .stop .ub ∧ (j.run H).1 ≠ .stop .diverge := by
  have h := tr_sync (H := ⟨H, j.kernel⟩) (bufMax := j.room) (srcs := j.srcs) hreg j.ans
  unfold Job.run
  revert h
  generalize sync ⟨H, j.kernel⟩ j.room j.srcs j.segs ⟨j.ans, []⟩ = r
  obtain ⟨r, w⟩ := r
  cases r with
  | ok a => exact fun h => ⟨h.1, fun ha => h.2 (by simpa using ha), by simp, by simp⟩
  | stop s => exact fun h => ⟨h.2.2, by simp, by simp [h.1], by simp [h.2.1]⟩

section
variable {H : Bytes → Id} {jobs : Nat → Job} {f img : Bytes} {h : Trace}

theorem puts_right (hreg : ∀ p, Regular (jobs p).segs) (himg : ∀ p, HasRegions H (jobs p).kernel img (jobs p).segs) (hse : ∀ p, SeedsRight H ((jobs p).run H).2)
    (ht : Together H jobs f h) : ∀ (n : Nat) (g g2 : Trace), g.length = n → h = g ++ g2 → PutsRight img g := by
  intro n
  induction n with
  | zero => intro g g2 hn _; simp [List.length_eq_zero_iff.1 hn, PutsRight]
  | succ n ih =>
    intro g g2 hn hh
    rcases List.eq_nil_or_concat g with rfl | ⟨g', x, rfl⟩
    · simp at hn
    · rw [List.concat_eq_append] at hn hh ⊢
      have hg := ih g' (x :: g2) (by simpa using hn) (by rw [hh]; simp)
      intro p off b hm
      rcases List.mem_append.1 hm with hm | hm
      · exact hg p off b hm
      · simp at hm
        subst hm
        have hh' : h = g' ++ (p, .put off b) :: g2 := by rw [hh]; simp
        exact (put_right (p := p) hg (by rw [← hh']; exact ht.coherent) (by rw [← hh']; exact ht.does p)
          (job_spec H (jobs p) (hreg p)).1 (himg p) (hse p)).1

/-- **C87**: however many runs of csn work on a target at the same time, for the same image, and however their reads and writes
are interleaved: every byte that one of them writes belongs to a region of its index and is the one of the image. -/
theorem C87_writes (hreg : ∀ p, Regular (jobs p).segs) (himg : ∀ p, HasRegions H (jobs p).kernel img (jobs p).segs) (hse : ∀ p, SeedsRight H ((jobs p).run H).2)
    (ht : Together H jobs f h) (p off : Nat) (b : UInt8) (hw : (p, .put off b) ∈ h) :
    img[off]? = some b ∧ ∃ s ∈ (jobs p).segs, s.off ≤ off ∧ off < s.off + s.len := by
  obtain ⟨g, g2, hh⟩ := List.append_of_mem hw
  exact put_right (p := p) (puts_right hreg himg hse ht _ g _ rfl hh) (by rw [← hh]; exact ht.coherent) (by rw [← hh]; exact ht.does p)
    (job_spec H (jobs p) (hreg p)).1 (himg p) (hse p)

/-- **C87**: what is as in the image stays so. -/
theorem C87_stays (hreg : ∀ p, Regular (jobs p).segs) (himg : ∀ p, HasRegions H (jobs p).kernel img (jobs p).segs) (hse : ∀ p, SeedsRight H ((jobs p).run H).2)
    (ht : Together H jobs f h) (h1 h2 h3 : Trace) (hh : h = h1 ++ h2 ++ h3) (off : Nat) (b : UInt8) (hb : img[off]? = some b)
    (h0 : (contents f h1)[off]? = some b) : (contents f (h1 ++ h2))[off]? = some b := by
  rw [contents_append]
  refine contents_keeps hb (fun p o x hm => ?_) h0
  exact puts_right hreg himg hse ht _ (h1 ++ h2) h3 rfl hh p o x (List.mem_append_right _ hm)

/-- **C87**: as soon as one of the runs has succeeded, the target has all regions of its index, whatever the others do then or
have done before. -/
theorem C87_success (hreg : ∀ p, Regular (jobs p).segs) (himg : ∀ p, HasRegions H (jobs p).kernel img (jobs p).segs) (hse : ∀ p, SeedsRight H ((jobs p).run H).2)
    (ht : Together H jobs f h) (p : Nat) (hok : ((jobs p).run H).1 = .ok true) (h1 h2 : Trace) (hh : h = h1 ++ h2) (hp : ∀ x ∈ h2, x.1 ≠ p)
    (s : Seg) (hs : s ∈ (jobs p).segs) (hn : s.len ≠ 0) :
    slice (contents f h1) s.off s.len = slice img s.off s.len ∧ H (slice (contents f h1) s.off s.len) = s.id := by
  have hk := job_spec H (jobs p) (hreg p)
  have hd : doneBy p h = doneBy p h1 := by
    rw [hh, doneBy_append]
    have : ∀ g : Trace, (∀ x ∈ g, x.1 ≠ p) → doneBy p g = [] := by
      intro g
      induction g with
      | nil => intro _; rfl
      | cons x g ih =>
        intro hg
        obtain ⟨q, a⟩ := x
        rw [doneBy, if_neg (hg _ List.mem_cons_self), ih fun x hx => hg x (List.mem_cons_of_mem _ hx)]
    rw [this h2 hp, List.append_nil]
  have hfin : s ∈ ((jobs p).run H).2.filterMap finished := by
    rw [hk.2.1 hok]
    exact hs
  have hc := ht.coherent
  rw [hh, coherent_append] at hc
  have key : slice (contents f h1) s.off s.len = slice img s.off s.len := by
    have hr := finished_right (p := p) (puts_right hreg himg hse ht _ h1 h2 rfl hh) hc.1 (ht.does p) (fun a ha => by rw [← hd]; exact ha)
      hk.1.sound (himg p) hfin hs hn
    refine List.ext_getElem? fun i => ?_
    by_cases hi : i < s.len
    · obtain ⟨x, x1, x2⟩ := hr i hi
      rw [slice_get hi, slice_get hi, x1, x2]
    · rw [List.getElem?_eq_none (by unfold slice; simp; omega), List.getElem?_eq_none (by unfold slice; simp; omega)]
  exact ⟨key, by rw [key]; exact (himg p s hs hn).2.1⟩

/-- Without local stores the condition on them is met. -/
theorem seedsRight_remote (j : Job) (hreg : Regular j.segs) (hs : ∀ s ∈ j.srcs, s = .http ∨ s = .target) : SeedsRight H (j.run H).2 := by
  intro k id off d hm
  obtain ⟨a, b, hab⟩ := List.append_of_mem hm
  rcases (job_spec H j hreg).1.sound a _ b hab with ⟨es, g, -⟩ | ⟨⟨es, g⟩, -⟩
  · simpa using hs _ (List.mem_of_getElem? g)
  · simpa using hs _ (List.mem_of_getElem? g)

/-- **C87** for runs whose stores are servers and the target: nothing else is needed. -/
theorem C87_remote (hreg : ∀ p, Regular (jobs p).segs) (himg : ∀ p, HasRegions H (jobs p).kernel img (jobs p).segs) (hs : ∀ p, ∀ s ∈ (jobs p).srcs, s = .http ∨ s = .target)
    (ht : Together H jobs f h) :
    (∀ p off b, (p, .put off b) ∈ h → img[off]? = some b) ∧
    ∀ p, ((jobs p).run H).1 = .ok true → ∀ s ∈ (jobs p).segs, s.len ≠ 0 → H (slice (contents f h) s.off s.len) = s.id :=
  have hse := fun p => seedsRight_remote (jobs p) (hreg p) (hs p)
  ⟨fun p off b hw => (C87_writes hreg himg hse ht p off b hw).1,
   fun p hok s hm hn => (C87_success hreg himg hse ht p hok h [] (by simp) (by simp) s hm hn).2⟩

end

/-! ### Cases -/

instance : ∀ (f : Bytes) (h : Trace), Decidable (Coherent f h)
  | _, [] => isTrue trivial
  | f, (_, .get off b) :: h =>
    have := instDecidableCoherent f h
    inferInstanceAs (Decidable (f[off]? = some b ∧ Coherent f h))
  | f, (_, .put off b) :: h => instDecidableCoherent (writeAt f off [b]) h

theorem performs_straight : ∀ log : List Ev, Performs accesses log (log.flatMap accesses)
  | [] => .done
  | e :: log => by
    rw [List.flatMap_cons]
    exact .step (List.Perm.refl _) (performs_straight log)

/-- The first process downloads everything.  The second one finds the first region right, as the first one has just written it,
downloads the second one as well and takes the last region from the target. -/
def pair : Nat → Job
  | 0 => ⟨8, [.http], false, sandwich, [.read [9, 9] true, .http [1, 2] .judged, .write true 0, .http [3, 4] .judged, .write true 0, .http [1, 2] .judged, .write true 0]⟩
  | 1 => ⟨8, [.target, .http], false, sandwich, [.read [1, 2] true, .pick none, .room true, .read [3, 9] true, .pick none, .http [3, 4] .judged, .write true 0,
      .pick none, .room true, .pick (some 0), .read [1, 2] true, .write true 0, .pick (some 0)]⟩
  | _ => ⟨0, [], false, [], []⟩

def pairHistory : Trace :=
  [(0, .put 0 1), (0, .put 1 2), (1, .get 0 1), (1, .get 1 2), (0, .put 2 3), (1, .put 2 3), (1, .put 3 4), (1, .get 0 1), (0, .put 3 4),
   (1, .get 1 2), (1, .put 4 1), (0, .put 4 1), (1, .put 5 2), (0, .put 5 2)]

theorem pair_runs : ((pair 0).run selfHash).1 = .ok true ∧ ((pair 1).run selfHash).1 = .ok true ∧
    ((pair 0).run selfHash).2.flatMap accesses = doneBy 0 pairHistory ∧ ((pair 1).run selfHash).2.flatMap accesses = doneBy 1 pairHistory ∧
    Coherent [9, 9, 9, 9, 9, 9] pairHistory := by decide +kernel

theorem pair_together : Together selfHash pair [9, 9, 9, 9, 9, 9] pairHistory where
  does p := by
    match p with
    | 0 =>
      rw [← pair_runs.2.2.1]
      exact performs_straight _
    | 1 =>
      rw [← pair_runs.2.2.2.1]
      exact performs_straight _
    | _ + 2 => exact .done
  coherent := pair_runs.2.2.2.2

theorem sandwich_image (k : Bool) : HasRegions selfHash k [1, 2, 3, 4, 1, 2] sandwich := by
  intro s hs _
  simp only [sandwich, List.mem_cons, List.not_mem_nil, or_false] at hs
  rcases hs with rfl | rfl | rfl <;> exact ⟨by decide, by decide, fun c _ h => h⟩

/-- All hypotheses are met: after the last access of the second process (the first one has still to write a byte), the target
has all regions. -/
example : ∀ s ∈ sandwich, s.len ≠ 0 → slice (contents [9, 9, 9, 9, 9, 9] (pairHistory.take 13)) s.off s.len = slice [1, 2, 3, 4, 1, 2] s.off s.len :=
  fun s hs hn => (C87_success (H := selfHash) (jobs := pair) (h := pairHistory)
    (fun p => match p with
      | 0 => sandwich_regular
      | 1 => sandwich_regular
      | _ + 2 => fun a x y b h => by simp [pair] at h)
    (fun p => match p with
      | 0 => sandwich_image _
      | 1 => sandwich_image _
      | _ + 2 => fun s hs => by simp [pair] at hs)
    (fun p => match p with
      | 0 => seedsRight_remote (pair 0) sandwich_regular (by decide)
      | 1 => seedsRight_remote (pair 1) sandwich_regular (by decide)
      | n + 2 => seedsRight_remote (pair (n + 2)) (fun a x y b h => by simp [pair] at h) (fun s hs => by simp [pair] at hs))
    pair_together 1 pair_runs.2.1 (pairHistory.take 13) (pairHistory.drop 13) (by decide) (by decide) s hs hn).1

/-- Two processes with different images: the first reports success, and then the second one overwrites its work.  (The same holds
without any concurrency; `C87_success` is about runs for the same image.) -/
def rivals : Nat → Job
  | 0 => ⟨8, [.http], false, [⟨0, 2, [1, 2]⟩], [.read [9, 9] true, .http [1, 2] .judged, .write true 0]⟩
  | 1 => ⟨8, [.http], false, [⟨0, 2, [5, 6]⟩], [.read [9, 9] true, .http [5, 6] .judged, .write true 0]⟩
  | _ => ⟨0, [], false, [], []⟩

example : ((rivals 0).run selfHash).1 = .ok true ∧ ((rivals 1).run selfHash).1 = .ok true ∧
    ((rivals 0).run selfHash).2.flatMap accesses = doneBy 0 [(1, .put 0 5), (0, .put 0 1), (0, .put 1 2), (1, .put 1 6)] ∧
    ((rivals 1).run selfHash).2.flatMap accesses = doneBy 1 [(1, .put 0 5), (0, .put 0 1), (0, .put 1 2), (1, .put 1 6)] ∧
    contents [9, 9] [(1, .put 0 5), (0, .put 0 1), (0, .put 1 2), (1, .put 1 6)] = [1, 6] := by decide +kernel

end Csn.Props
