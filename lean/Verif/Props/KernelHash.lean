import Verif.Spec.KernelHash
import Verif.Props.Sha
import Verif.Props.Shared
/-
C88: csn with the kernel's hash interface.
-/
namespace Csn.Props
open Csn.Race
open Csn.Spec (slice Regular)

/-! ### The digests -/

/-- **C88**: whatever the kernel's interface does, a digest is that of the data or of an end of it.  As long as the interface
stays in use, it is that of the data, and nothing is left over for the next call. -/
theorem C88_digest (H : Bytes → Id) (hH : Digests H) (st : Kcapi) (hst : st.acc = []) (data out : Bytes) (ho : out.length = 32) (sys : List Sys)
    (d : Id) (st' : Kcapi) (r : List Sys) (hrun : shaOnce H H st data out sys = (some d, st', r)) :
    ∃ k, d = H (data.drop k) ∧ (st'.on = st.on → k = 0) ∧ st'.acc = [] ∧ (st.on = false → st'.on = false) := by
  by_cases hkeep : st'.on = st.on
  · obtain ⟨h1, h2⟩ := C54_digest_partial H H hH st data out ho sys d st' r hrun (fun _ => ⟨hst, rfl⟩) hkeep
    exact ⟨0, by rw [h1, List.drop_zero], fun _ => rfl, by rw [h2, hst], fun h => by rw [hkeep, h]⟩
  · unfold shaOnce at hrun
    by_cases hon : st.on = false
    · rw [if_pos hon] at hrun
      cases hrun
      exact absurd rfl hkeep
    · rw [if_neg hon] at hrun
      obtain ⟨o, r1, h1, h2, h3, h4⟩ := sendLoop_spec sys data st.acc
      rw [h1] at hrun
      have fall : ∀ b rest acc o2, o2.length = 32 → o = some (b, rest, acc) → some (bufWrite o2 0 (H rest)) = some d → (⟨false, []⟩ : Kcapi) = st' →
          ∃ k, d = H (data.drop k) ∧ (st'.on = st.on → k = 0) ∧ st'.acc = [] ∧ (st.on = false → st'.on = false) := by
        intro b rest acc o2 ho2 e1 e2 e3
        obtain ⟨g1, -, -⟩ := h3 _ _ _ e1
        rw [hst, List.nil_append] at g1
        simp only [Option.some.injEq] at e2
        rw [Csn.Props.bufWrite_all hH ho2] at e2
        refine ⟨acc.length, ?_, fun h => absurd h hkeep, by rw [← e3], fun h => absurd h hon⟩
        rw [← g1, List.drop_left, e2]
      match o, fall, hrun with
      | none, _, hrun => simp at hrun
      | some (false, rest, acc), fall, hrun =>
        simp only [Prod.mk.injEq] at hrun
        exact fall _ _ _ _ ho rfl hrun.1 hrun.2.1
      | some (true, rest, acc), fall, hrun =>
        simp only at hrun
        have hr := recvLoop_spec hH acc ho r1
        generalize recvLoop (H acc) out r1 = q at hrun hr
        obtain ⟨a, o2, r2⟩ := q
        match a, hrun, hr with
        | none, hrun, _ => simp at hrun
        | some false, hrun, hr =>
          simp only [Prod.mk.injEq] at hrun
          exact fall _ _ _ _ hr.1 rfl hrun.1 hrun.2.1
        | some true, hrun, _ =>
          simp only [Prod.mk.injEq] at hrun
          exact absurd (by rw [← hrun.2.1]; simpa using hon) hkeep

/-- **C88**: a process gets at most one wrong digest, and that one is of an end of the data. -/
theorem C88_once (H : Bytes → Id) (hH : Digests H) : ∀ (ds : List Bytes) (st : Kcapi) (sys : List Sys), st.acc = [] →
    ∃ ks : List Nat, ks.length = (digestsOf H st ds sys).length ∧ digestsOf H st ds sys = List.zipWith (fun d k => H (d.drop k)) ds ks ∧
      (ks.filter (· ≠ 0)).length ≤ 1 ∧ (st.on = false → ∀ k ∈ ks, k = 0)
  | [], _, _, _ => ⟨[], rfl, rfl, by simp, by simp⟩
  | d :: ds, st, sys, hst => by
    unfold digestsOf
    generalize hrun : shaOnce H H st d (List.replicate 32 0) sys = q
    obtain ⟨o, st', r⟩ := q
    cases o with
    | none => exact ⟨[], rfl, by simp, by simp, by simp⟩
    | some x =>
      obtain ⟨k, h1, h2, h3, h4⟩ := C88_digest H hH st hst d _ (by simp) sys x st' r hrun
      obtain ⟨ks, g1, g2, g3, g4⟩ := C88_once H hH ds st' r h3
      refine ⟨k :: ks, by simp [g1], by simp only [List.zipWith_cons_cons]; rw [← g2, h1], ?_, fun hoff => ?_⟩
      · by_cases hk : k = 0
        · simpa [hk] using g3
        · have hoff : st'.on = false := by
            by_cases hon : st.on = false
            · exact h4 hon
            · by_cases hon' : st'.on = false
              · exact hon'
              · exact absurd (h2 (by rw [(by simpa using hon : st.on = true), (by simpa using hon' : st'.on = true)])) hk
          have : ks.filter (· ≠ 0) = [] := by
            rw [List.filter_eq_nil_iff]
            intro a ha
            simp [g4 hoff a ha]
          rw [List.filter_cons]
          split
          · rw [this]; simp
          · rw [this]; simp
      · have h5 := h4 hoff
        intro a ha
        rcases List.mem_cons.1 ha with rfl | ha
        · exact h2 (by rw [h5, hoff])
        · exact g4 h5 a ha

/-! ### The loop -/

section
variable {H : Bytes → Id} {img : Bytes} {j : Job}

/-- **C88**: whatever the kernel's interface (and every file) does: what csn writes for a region is the region of the image or what
a store handed out without comparing, and what it leaves as it is was the region of the image when it was read. -/
theorem C88_writes (hreg : Regular j.segs) (himg : HasRegions H true img j.segs) :
    (∀ s d ok, .wrote s d ok ∈ (j.run H).2 → s.len ≠ 0 → ∃ c : Bytes, d = c.take d.length ∧ (ok = true → d = c) ∧
      (c = slice img s.off s.len ∨ c.length = s.len ∧ ∃ k off, .trusted k s.id off c ∈ (j.run H).2)) ∧
    (∀ s d, .kept s d ∈ (j.run H).2 → s.len ≠ 0 → d = slice img s.off s.len) := by
  have hk := (job_spec H j hreg).1
  have mono : ∀ {c : Bytes} {id : Id}, Takes H j.kernel c id → Takes H true c id := by
    intro c id h
    rcases h with h | ⟨-, h⟩
    · exact Or.inl h
    · exact Or.inr ⟨rfl, h⟩
  refine ⟨fun s d ok hm hn => ?_, fun s d hm hn => ?_⟩
  · obtain ⟨a, b, hab⟩ := List.append_of_mem hm
    obtain ⟨c, c1, c2, c3, c4⟩ := hk.sound a _ b hab
    have hs : s ∈ j.segs := (hk.next a _ b hab s rfl).subset (by simp)
    obtain ⟨b1, b2, b3⟩ := himg s hs hn
    refine ⟨c, c2, c3, (c4 hn).imp (fun h => takes_slice hn (slice_length b1) b3 c1 (mono h)) (fun h => ⟨c1, ?_⟩)⟩
    obtain ⟨k, off, h⟩ := h
    exact ⟨k, off, by rw [hab]; exact List.mem_append_left _ h⟩
  · obtain ⟨a, b, hab⟩ := List.append_of_mem hm
    obtain ⟨c1, c2⟩ := hk.sound a _ b hab
    have hs : s ∈ j.segs := (hk.next a _ b hab s rfl).subset (by simp)
    obtain ⟨b1, b2, b3⟩ := himg s hs hn
    exact takes_slice hn (slice_length b1) b3 c1 (mono c2)

/-- **C88**: with HTTP stores only, whatever the kernel's interface does, success means that csn has written every region as it is
in the image, or found it so. -/
theorem C88_success (hreg : Regular j.segs) (himg : HasRegions H true img j.segs) (hs : ∀ s ∈ j.srcs, s = .http) (hok : (j.run H).1 = .ok true)
    (s : Seg) (hm : s ∈ j.segs) (hn : s.len ≠ 0) :
    .wrote s (slice img s.off s.len) true ∈ (j.run H).2 ∨ .kept s (slice img s.off s.len) ∈ (j.run H).2 := by
  obtain ⟨hk, hfin, -⟩ := job_spec H j hreg
  rw [← hfin hok] at hm
  obtain ⟨e, he, hf⟩ := List.mem_filterMap.1 hm
  obtain ⟨w1, w2⟩ := C88_writes (j := j) hreg himg
  cases e with
  | wrote s' d ok =>
    cases ok with
    | false => simp [finished] at hf
    | true =>
      simp [finished] at hf
      subst hf
      obtain ⟨c, -, c3, c4⟩ := w1 s' d true he hn
      have hd := c3 rfl
      subst hd
      rcases c4 with rfl | ⟨-, k, off, ht⟩
      · exact Or.inl he
      · obtain ⟨a, b, hab⟩ := List.append_of_mem ht
        have h := hk.sound a _ b hab
        cases k with
        | none => simpa using hs _ h.1
        | some k =>
          rcases h with ⟨es, g, -⟩ | ⟨⟨es, g⟩, -⟩
          · simpa using hs _ (List.mem_of_getElem? g)
          · simpa using hs _ (List.mem_of_getElem? g)
  | kept s' d =>
    simp [finished] at hf
    subst hf
    exact Or.inr (w2 s' d he hn ▸ he)
  | trusted => simp [finished] at hf
  | right => simp [finished] at hf
  | rescan => simp [finished] at hf

/-- **C88**: the kernel's interface causes no undefined behaviour in the loop, and a lookup ends. -/
theorem C88_no_ub (hreg : Regular j.segs) : (j.run H).1 ≠ .stop .ub ∧ (j.run H).1 ≠ .stop .diverge := (job_spec H j hreg).2.2

end

/-- **C88**, the other half: if the hash tells the data from an end of it, a failing interface makes csn refuse the right data, and
the run fails. -/
theorem C88_may_refuse (H : Bytes → Id) (x : Bytes) (k : Nat) (hx : x ≠ []) (hne : H (x.drop k) ≠ H x) : ¬ MadeUpFor H := by
  intro h
  have h1 := h x x.length k hx (Nat.le_refl _)
  have h2 : (bufWrite (List.replicate x.length (0 : UInt8)) 0 x) = x := by simp [bufWrite]
  have h3 : (bufWrite (List.replicate x.length (0 : UInt8)) 0 []) = List.replicate x.length 0 := by simp [bufWrite]
  have h4 : x.length ≠ 0 := by simpa using hx
  revert h1
  unfold Job.run sync
  simp only [loop, cb, tCheck, readInto, store, fetch, cGet, sGet, hGet, digest, chainFrom, Source.store,
    bind, R.bind, R.next, pure, R.pure, List.length_replicate, List.take_nil, h3, if_true, if_false, Nat.lt_irrefl,
    List.contains_cons, List.contains_nil, Bool.or_false]
  simp [R.bind, R.next, R.pure, h2, hne, h4.symm]

/-! ### Cases -/

/-- The interface fails after two bytes were sent; two further digests are right. -/
example : digestsOf padHash ⟨true, []⟩ [[1, 2, 3, 4], [5], [6]] [.some 1, .err] = [padHash [3, 4], padHash [5], padHash [6]] ∧
    Digests padHash := by
  refine ⟨by decide, padHash_digests⟩

/-- Another server sends a byte too much; the interface fails after that byte, so the digest fits.  The length does not
(main.c:61), so nothing is written. -/
example : (Job.mk 8 [.http] true [⟨0, 2, [3, 4]⟩] [.read [] false, .http [1, 3, 4] .judged, .hash 1]).run selfHash = (.ok false, []) := by decide +kernel

/-- All hypotheses are met: the first region is found right, the second one is refused at first (the digest is that of an end),
so that csn goes on with the second server. -/
def shaky : Job := ⟨8, [.http, .http], true, sandwich, [.read [1, 2] true, .hash 0, .read [9, 9] true, .hash 0, .http [3, 4] .judged, .hash 1,
  .http [3, 4] .judged, .hash 0, .write true 0, .http [1, 2] .judged, .hash 0, .write true 0]⟩

example : shaky.run selfHash = (.ok true, [.kept ⟨0, 2, [1, 2]⟩ [1, 2], .wrote ⟨2, 2, [3, 4]⟩ [3, 4] true, .wrote ⟨4, 2, [1, 2]⟩ [1, 2] true]) ∧
    Regular shaky.segs ∧ HasRegions selfHash true [1, 2, 3, 4, 1, 2] shaky.segs ∧ ∀ s ∈ shaky.srcs, s = .http :=
  ⟨by decide +kernel, sandwich_regular, sandwich_image true, by simp [shaky]⟩

/-- The condition of C88 is needed: this hash tells strings of the same length apart, but not strings of different length. -/
def noZeros (d : Bytes) : Id := d.dropWhile (· == 0)

example : (Job.mk 8 [.http] false [⟨0, 2, noZeros [0, 4]⟩] [.read [] false, .http [9, 4] .judged]).run noZeros = (.ok false, []) ∧
    (Job.mk 8 [.http] true [⟨0, 2, noZeros [0, 4]⟩] [.read [] false, .http [9, 4] .judged, .hash 1, .write true 0]).run noZeros =
      (.ok true, [.wrote ⟨0, 2, [4]⟩ [9, 4] true]) := by decide +kernel

/-- The hypotheses of `C88_may_refuse` are met. -/
example : ([1, 2] : Bytes) ≠ [] ∧ selfHash (([1, 2] : Bytes).drop 1) ≠ selfHash [1, 2] := by decide

end Csn.Props
