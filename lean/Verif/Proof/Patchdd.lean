import Verif.Model.Patchdd
import Verif.Proof.Wp
import Verif.Proof.Shape
import Verif.Spec.Patch
import Verif.Spec.Durable
import Verif.Spec.Sync
/-
Rules for patchdd.
-/
namespace Csn.Proof
open Csn Spec

theorem mix_getElem? {s d : Bytes} {p : Nat} (hp : p ≤ s.length) (i : Nat) : (mix s d p)[i]? = if i < p then s[i]? else d[i]? := by
  unfold mix
  by_cases h : i < p
  · rw [if_pos h, List.getElem?_append_left (by simp; omega), List.getElem?_take, if_pos h]
  · rw [if_neg h, List.getElem?_append_right (by simp; omega), List.getElem?_drop]
    congr 1
    simp only [List.length_take]
    omega

theorem mix_length {s d : Bytes} {p : Nat} (hp : p ≤ s.length) (hd : p ≤ d.length) : (mix s d p).length = d.length := by
  unfold mix; simp; omega

theorem writeAt_mix {s d : Bytes} {p k : Nat} (hp : p + k ≤ s.length) (hd : s.length ≤ d.length) :
    writeAt (mix s d p) p (slice s p k) = mix s d (p + k) := by
  have hl : (slice s p k).length = k := by unfold slice; simp; omega
  refine patched_unique (writeAt_patched _ _ _) ?_
  intro i
  rw [mix_getElem? hp, hl, mix_length (by omega) (by omega), slice_getElem?, mix_getElem? (by omega)]
  by_cases h1 : i < p
  · rw [if_pos (by omega), if_neg (by omega), if_pos (by omega), if_pos h1]
  · by_cases h2 : i < p + k
    · rw [if_pos h2, if_pos ⟨by omega, h2⟩, if_pos (by omega)]
      congr 1; omega
    · rw [if_neg h2, if_neg (by omega)]
      by_cases h3 : i < d.length
      · rw [if_pos h3, if_neg h1]
      · rw [if_neg h3, if_neg (by omega), List.getElem?_eq_none (by omega)]

theorem mix_eq {s d : Bytes} {p q : Nat} (hq : q ≤ s.length) (hpq : p ≤ q) (h : ∀ i, p ≤ i → i < q → s[i]? = d[i]?) : mix s d p = mix s d q := by
  apply List.ext_getElem?
  intro i
  rw [mix_getElem? (by omega), mix_getElem? hq]
  by_cases h1 : i < p
  · rw [if_pos h1, if_pos (by omega)]
  · rw [if_neg h1]
    by_cases h2 : i < q
    · rw [if_pos h2, h i (by omega) h2]
    · rw [if_neg h2]

theorem memcmpOffset_spec : ∀ (a b : Bytes), a.length = b.length → memcmpOffset a b ≤ a.length ∧
    (∀ i < memcmpOffset a b, a[i]? = b[i]?) ∧ (memcmpOffset a b < a.length → a[memcmpOffset a b]? ≠ b[memcmpOffset a b]?)
  | [], [], _ => by simp [memcmpOffset]
  | x :: a, y :: b, h => by
    obtain ⟨h1, h2, h3⟩ := memcmpOffset_spec a b (by simpa using h)
    unfold memcmpOffset
    by_cases hxy : x = y
    · rw [if_pos hxy]
      refine ⟨by simp; omega, fun i hi => ?_, fun hl => ?_⟩
      · cases i with
        | zero => simp [hxy]
        | succ i => simpa using h2 i (by omega)
      · simpa using h3 (by simpa using hl)
    · rw [if_neg hxy]
      refine ⟨by simp, by simp, fun _ => by simpa using hxy⟩

theorem contig_between {a b : Nat} {ws : List (Nat × Bytes)} (h : Contig a ws b) : a ≤ b ∧ (∀ e ∈ ws, a ≤ e.1 ∧ e.1 + e.2.length ≤ b) ∧
    Upwards ws ∧ ∀ pos, Covered ws pos ↔ a ≤ pos ∧ pos < b := by
  induction ws generalizing a with
  | nil =>
    simp only [Contig] at h
    subst h
    refine ⟨Nat.le_refl _, by simp, List.Pairwise.nil, fun pos => ⟨?_, fun hh => by omega⟩⟩
    rintro ⟨e, he, _⟩
    simp at he
  | cons x ws ih =>
    obtain ⟨o, d⟩ := x
    obtain ⟨rfl, h2, h3⟩ := h
    obtain ⟨g1, g2, g3, g4⟩ := ih h3
    have hpos := List.length_pos_iff.2 h2
    refine ⟨by omega, ?_, ?_, ?_⟩
    · intro e he
      rcases List.mem_cons.1 he with rfl | he
      · exact ⟨Nat.le_refl _, by simpa using g1⟩
      · have := g2 e he; omega
    · refine List.pairwise_cons.2 ⟨fun e he => (g2 e he).1, g3⟩
    · intro pos
      constructor
      · rintro ⟨e, he, h5, h6⟩
        rcases List.mem_cons.1 he with rfl | he
        · simp only at h5 h6; omega
        · have := g2 e he; omega
      · rintro ⟨h5, h6⟩
        by_cases hp : pos < o + d.length
        · exact ⟨(o, d), by simp, h5, hp⟩
        · obtain ⟨e, he, h7⟩ := (g4 pos).2 ⟨by omega, h6⟩
          exact ⟨e, by simp [he], h7⟩

theorem contig_sum : ∀ {a b : Nat} {ws : List (Nat × Bytes)}, Contig a ws b → a + (ws.map (·.2.length)).sum = b
  | a, b, [], h => by simpa [Contig] using h
  | a, b, (o, d) :: ws, h => by
    obtain ⟨rfl, -, h3⟩ := h
    have := contig_sum h3
    simp only [List.map_cons, List.sum_cons]
    omega

theorem results_append {f g h : Bytes} {a b : List (Nat × Bytes)} (h1 : Results f a g) (h2 : Results g b h) : Results f (a ++ b) h := by
  induction a generalizing f with
  | nil => simp only [Results] at h1; subst h1; exact h2
  | cons x a ih =>
    obtain ⟨o, d⟩ := x
    obtain ⟨k, h3, h4⟩ := h1
    exact ⟨k, h3, ih h4⟩

theorem results_unique {f g h : Bytes} {a : List (Nat × Bytes)} (h1 : Results f a g) (h2 : Results f a h) : g = h := by
  induction a generalizing f with
  | nil => simp only [Results] at h1 h2; rw [h1, h2]
  | cons x a ih =>
    obtain ⟨o, d⟩ := x
    obtain ⟨k, h3, h4⟩ := h1
    obtain ⟨k', h5, h6⟩ := h2
    rw [patched_unique h3 h5] at h4
    exact ih h4 h6

/-- Consecutive pieces of the source, written one after the other. -/
theorem contig_results {s d : Bytes} (hd : s.length ≤ d.length) : ∀ {ws : List (Nat × Bytes)} {a b : Nat}, Contig a ws b → b ≤ s.length →
    (∀ e ∈ ws, e.2 = slice s e.1 e.2.length) → Results (mix s d a) ws (mix s d b)
  | [], a, b, h, _, _ => by simp only [Contig] at h; subst h; rfl
  | (o, x) :: ws, a, b, h, hb, hs => by
    obtain ⟨rfl, h2, h3⟩ := h
    have hle := (contig_between h3).1
    have hx : x = slice s o x.length := hs (o, x) (by simp)
    refine ⟨mix s d (o + x.length), ?_, contig_results hd h3 hb (fun e he => hs e (by simp [he]))⟩
    rw [← writeAt_mix (k := x.length) (by omega) hd, ← hx]
    exact writeAt_patched _ _ _

/-- The state of a copy that has arrived at position `p`, with `n` bytes skipped. -/
structure Copied (T : Nat) (s d : Bytes) (di : Nat) (w0 : World) (n p : Nat) (w : World) : Prop where
  data : w.data di = mix s d p
  rest : ∀ i, i ≠ di → w.data i = w0.data i
  dir : w.dir = w0.dir
  kind : w.kind = w0.kind
  next : w.next = w0.next
  sys : w.sys <:+ w0.sys
  log : ∃ ws : List (Nat × Bytes), w.log = w0.log ++ ws.map (fun e => Event.write di e.1 e.2) ∧ Upwards ws ∧
    (∀ e ∈ ws, e.2 = slice s e.1 e.2.length ∧ e.2 ≠ [] ∧ e.1 + e.2.length ≤ p) ∧ (∀ pos, Covered ws pos ↔ pos < p ∧ Differs T s d pos) ∧
    Results d ws (mix s d p) ∧ n + (ws.map (·.2.length)).sum = p

theorem Copied.sysOnly {T : Nat} {s d : Bytes} {di : Nat} {w0 w : World} {n p : Nat} (h : Copied T s d di w0 n p w) {r : List Sys} (hr : r <:+ w.sys) :
    Copied T s d di w0 n p { w with sys := r } := ⟨h.data, h.rest, h.dir, h.kind, h.next, hr.trans h.sys, h.log⟩

theorem covered_append {a b : List (Nat × Bytes)} {pos : Nat} : Covered (a ++ b) pos ↔ Covered a pos ∨ Covered b pos := by
  unfold Covered
  constructor
  · rintro ⟨e, he, h⟩
    rcases List.mem_append.1 he with he | he
    · exact Or.inl ⟨e, he, h⟩
    · exact Or.inr ⟨e, he, h⟩
  · rintro (⟨e, he, h⟩ | ⟨e, he, h⟩)
    · exact ⟨e, List.mem_append_left _ he, h⟩
    · exact ⟨e, List.mem_append_right _ he, h⟩

/-- Within a block that starts at `off` (a multiple of `T`), with `fd` equal bytes and then a difference (or the end). -/
theorem Copied.advance {T : Nat} {s d : Bytes} {di : Nat} {w0 w : World} {off fd k n m : Nat} (hT : 0 < T) (hoff : off % T = 0) (hd : s.length ≤ d.length)
    (hn : n ≤ T) (hs : off + n ≤ s.length) (hfd : fd + k ≤ n)
    (heq : ∀ i < fd, s[off + i]? = d[off + i]?) (hne : fd < n → s[off + fd]? ≠ d[off + fd]?)
    (h : Copied T s d di w0 m off w) {evs : List (Nat × Bytes)} {r : List Sys} (hp : PiecesOf (off + fd) (slice s (off + fd) k) evs) (hr : r <:+ w.sys) :
    Copied T s d di w0 (m + fd) (off + fd + k) (wrote w di (off + fd) (slice s (off + fd) k) evs r) := by
  have hl : (slice s (off + fd) k).length = k := by unfold slice; simp; omega
  have hmix : mix s d off = mix s d (off + fd) := by
    refine mix_eq (by omega) (by omega) (fun i h1 h2 => ?_)
    have := heq (i - off) (by omega)
    rwa [show off + (i - off) = i by omega] at this
  obtain ⟨hp1, hp2, hp3⟩ := hp
  rw [hl] at hp2
  obtain ⟨c1, c2, c3, c4⟩ := contig_between hp2
  have hsl : ∀ e ∈ evs, e.2 = slice s e.1 e.2.length := by
    intro e he
    obtain ⟨j, e1, e2, e3⟩ := hp3 e he
    rw [hl] at e3
    rw [e1]
    conv => lhs; rw [e2]
    apply List.ext_getElem?
    intro i
    rw [slice_getElem?, slice_getElem?, slice_getElem?]
    by_cases hi : i < e.2.length
    · rw [if_pos hi, if_pos hi, if_pos (by omega)]
      congr 1; omega
    · rw [if_neg hi, if_neg hi]
  refine ⟨?_, ?_, h.dir, h.kind, h.next, hr.trans h.sys, ?_⟩
  · show (if di = di then writeAt (w.data di) (off + fd) (slice s (off + fd) k) else w.data di) = _
    rw [if_pos rfl, h.data, hmix, writeAt_mix (by omega) hd]
  · intro i hi
    show (if i = di then writeAt (w.data di) (off + fd) (slice s (off + fd) k) else w.data i) = _
    rw [if_neg hi, h.rest i hi]
  · obtain ⟨ws, l1, l2, l3, l4, l5, l6⟩ := h.log
    refine ⟨ws ++ evs, ?_, ?_, ?_, ?_, ?_, ?_⟩
    · show w.log ++ _ = _
      rw [l1, List.map_append, List.append_assoc]
    · refine List.pairwise_append.2 ⟨l2, c3, fun a ha b hb => ?_⟩
      have := (l3 a ha).2.2
      have := (c2 b hb).1
      omega
    · intro e he
      rcases List.mem_append.1 he with he | he
      · exact ⟨(l3 e he).1, (l3 e he).2.1, by have := (l3 e he).2.2; omega⟩
      · exact ⟨hsl e he, contig_ne hp2 e he, (c2 e he).2⟩
    · intro pos
      rw [covered_append, l4 pos, c4 pos]
      have hblock : off ≤ pos → pos < off + n → T * (pos / T) = off := by
        intro h1 h2
        have e : off = T * (off / T) := by have := Nat.div_add_mod off T; omega
        have : pos / T = off / T := by
          apply Nat.div_eq_of_lt_le
          · rw [Nat.mul_comm]; omega
          · rw [Nat.add_mul, Nat.one_mul, Nat.mul_comm]; omega
        rw [this, ← e]
      constructor
      · rintro (⟨h1, h2⟩ | ⟨h1, h2⟩)
        · exact ⟨by omega, h2⟩
        · refine ⟨h2, off + fd, ?_, h1, hne (by omega)⟩
          rw [hblock (by omega) (by omega)]; omega
      · rintro ⟨h1, h2⟩
        by_cases h3 : pos < off
        · exact Or.inl ⟨h3, h2⟩
        · right
          refine ⟨?_, h1⟩
          obtain ⟨q, q1, q2, q3⟩ := h2
          rw [hblock (by omega) (by omega)] at q1
          apply Classical.byContradiction
          intro h4
          apply q3
          have := heq (q - off) (by omega)
          rwa [show off + (q - off) = q by omega] at this
    · have := contig_results hd hp2 (by omega) hsl
      rw [← hmix] at this
      exact results_append l5 this
    · have := contig_sum hp2
      rw [List.map_append, List.sum_append]
      omega

theorem wp_patchLoop {T src dst : Nat} {s d : Bytes} {w0 : World} (hT : 0 < T) (hd : s.length ≤ d.length)
    (hsrc : w0.data src = s) (hdst : w0.data dst = d) {Q : Option Nat → World → Prop} {S : Stop → World → Prop}
    (hok : ∀ m w', Copied T s d dst w0 m s.length w' → Q (some m) w')
    (hfail : ∀ m p w', p ≤ s.length → Copied T s d dst w0 m p w' → (¬ Clean w0.sys ∨ 2 ^ 63 ≤ s.length) → Q none w')
    (hstop : ∀ st m p w', p ≤ s.length → Copied T s d dst w0 m p w' → (st = .killed ∨ st = .abort ∧ ¬ Clean w0.sys) → S st w') :
    ∀ (fuel off m : Nat) (w : World), s.length < off + fuel → (off % T = 0 ∨ off = s.length) → off ≤ s.length → Copied T s d dst w0 m off w →
      wp (patchLoop T src dst s.length fuel off m) Q S w := by
  intro fuel
  induction fuel with
  | zero => intro off m w h1 _ h2; omega
  | succ fuel ih =>
    intro off m w h1 h2 h3 h
    unfold patchLoop
    by_cases hlt : off < s.length
    · rw [if_pos hlt]
      have hoff : off % T = 0 := by rcases h2 with h2 | h2 <;> omega
      have hcl : ¬ Clean w.sys → ¬ Clean w0.sys := fun hc hh => hc (hh.suffix h.sys)
      generalize hn : min (s.length - off) T = n
      have hn0 : 0 < n := by omega
      have hsd : w.data src = s ∨ (src = dst ∧ s = d) := by
        by_cases e : src = dst
        · exact Or.inr ⟨e, by rw [← hsrc, ← hdst, e]⟩
        · exact Or.inl (by rw [h.rest src e, hsrc])
      have hss : w.data src = s := by
        rcases hsd with e | ⟨e1, e2⟩
        · exact e
        · rw [e1, h.data, ← e2]; unfold mix; exact List.take_append_drop _ _
      have hdl : (w.data dst).length = d.length := by rw [h.data, mix_length h3 (by omega)]
      refine wp_bind (wp_preadall (fun r hr g1 g2 => ?_) (fun r k hr g1 g2 => ?_) (fun _ => ?_))
      · simp only
        refine wp_bind (wp_preadall (fun r' hr' g3 g4 => ?_) (fun r' k hr' g3 g4 => ?_) (fun _ => ?_))
        · simp only at hr' g3 g4 ⊢
          rw [hss] at g1 ⊢
          have hb : slice (w.data dst) off n = slice d off n := by
            apply List.ext_getElem?
            intro i
            rw [slice_getElem?, slice_getElem?, h.data, mix_getElem? h3, if_neg (by omega : ¬ off + i < off)]
          rw [hb] at g3 ⊢
          obtain ⟨m1, m2, m3⟩ := memcmpOffset_spec (slice s off n) (slice d off n) (by rw [g1, g3])
          rw [g1] at m1 m3
          generalize hfd : memcmpOffset (slice s off n) (slice d off n) = fd at m1 m2 m3
          have heq : ∀ i < fd, s[off + i]? = d[off + i]? := by
            intro i hi
            have := m2 i hi
            rwa [slice_getElem?, slice_getElem?, if_pos (by omega), if_pos (by omega)] at this
          have hne : fd < n → s[off + fd]? ≠ d[off + fd]? := by
            intro hf
            have := m3 hf
            rwa [slice_getElem?, slice_getElem?, if_pos hf, if_pos hf] at this
          have hpiece : ((slice s off n).drop fd).take (n - fd) = slice s (off + fd) (n - fd) := by
            unfold slice
            rw [List.drop_take, List.take_take, List.drop_drop, Nat.min_self]
          rw [hpiece]
          have hpl : (slice s (off + fd) (n - fd)).length = n - fd := by unfold slice; simp; omega
          have htake : ∀ k < n - fd, (slice s (off + fd) (n - fd)).take k = slice s (off + fd) k := by
            intro k hk
            unfold slice
            rw [List.take_take, Nat.min_eq_left (by omega)]
          have hr2 : r' <:+ w.sys := hr'.1.trans hr.1
          have hcl2 : ¬ Clean r' → ¬ Clean w0.sys := fun hc hh => hc (hh.suffix (hr2.trans h.sys))
          refine wp_bind (wp_pwriteall ?_ ?_ ?_)
          · intro r'' evs hr'' hp _ _
            rw [if_neg (by simp)]
            refine ih (off + n) (m + fd) _ (by omega) ?_ (by omega) ?_
            · by_cases e : n = T
              · left; rw [e, Nat.add_mod_right]; exact hoff
              · right; omega
            · have := h.advance (r := r'') hT hoff hd (by omega : n ≤ T) (by omega) (by omega : fd + (n - fd) ≤ n) heq hne hp (hr''.1.trans hr2)
              rwa [show off + fd + (n - fd) = off + n by omega] at this
          · intro r'' evs k hr'' hk hp _ _ hc
            rw [hpl] at hk
            rw [htake k hk] at hp ⊢
            rw [if_pos (by simp)]
            refine wp_pure (hfail (m + fd) (off + fd + k) _ (by omega) (h.advance (r := r'') hT hoff hd (by omega : n ≤ T) (by omega) (by omega) heq hne hp (hr''.1.trans hr2)) ?_)
            simp only [hpl] at hc
            rcases hc with hc | ⟨_, hc⟩ | hc
            · exact Or.inl (hcl2 hc)
            · omega
            · right; omega
          · intro r'' evs k st hk hp _ _ hr'' hc
            rw [hpl] at hk
            rw [htake k hk] at hp ⊢
            refine hstop st (m + fd) (off + fd + k) _ (by omega) (h.advance (r := r'') hT hoff hd (by omega : n ≤ T) (by omega) (by omega) heq hne hp (hr''.trans hr2)) ?_
            rcases hc with ⟨c1, c2⟩ | ⟨c1, _⟩
            · exact Or.inr ⟨c1, hcl2 c2⟩
            · exact Or.inl c1
        · simp only at hr' g3 g4 ⊢
          refine wp_pure (hfail m off _ h3 (h.sysOnly (hr'.1.trans hr.1)) ?_)
          rcases g4 with g4 | g4 | g4
          · exact Or.inl (fun hh => g4 (hh.suffix (hr.1.trans h.sys)))
          · rw [hdl] at g4; omega
          · right; omega
        · exact hstop _ m off _ h3 (h.sysOnly List.nil_suffix) (Or.inl rfl)
      · refine wp_pure (hfail m off _ h3 (h.sysOnly hr.1) ?_)
        rcases g2 with g2 | g2 | g2
        · exact Or.inl (hcl g2)
        · rw [hss] at g2; omega
        · right; omega
      · exact hstop _ m off _ h3 (h.sysOnly List.nil_suffix) (Or.inl rfl)
    · rw [if_neg hlt]
      have : off = s.length := by omega
      subst this
      exact wp_pure (hok m w h)

end Csn.Proof
