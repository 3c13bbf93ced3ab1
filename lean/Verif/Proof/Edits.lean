import Verif.Spec.Edits
import Verif.Proof.Chunking
import Verif.Props.Chunking
/-
The chunks of two versions of a file (C91).
-/
namespace Csn.Proof
open Csn Spec Props

variable {mi ma d : Nat}

theorem cut_congr {f g : Bytes} {n : Nat} (hf : n ≤ f.length) (hg : n ≤ g.length) (h : f.take n = g.take n) : Cut mi ma d f n ↔ Cut mi ma d g n := by
  unfold Cut hashAt
  rw [h]
  simp [hf, hg]

theorem firstCut_congr {f g : Bytes} {n : Nat} (hg : n ≤ g.length) (h : f.take n = g.take n) (hc : FirstCut mi ma d f n) : FirstCut mi ma d g n := by
  have hf := hc.1.2.1
  refine ⟨(cut_congr hf hg h).1 hc.1, fun m hm hcut => hc.2 m hm ((cut_congr (by omega) (by omega) ?_).1 hcut)⟩
  have := congrArg (List.take m) h
  rw [List.take_take, List.take_take, Nat.min_eq_left (by omega)] at this
  exact this.symm

/-- A file that has a first cut starts with the chunk up to it. -/
theorem chunking_first {f : Bytes} {n : Nat} {cs : List Bytes} (h : Chunking mi ma d f cs) (hc : FirstCut mi ma d f n) :
    ∃ r, cs = f.take n :: r ∧ Chunking mi ma d (f.drop n) r := by
  cases h with
  | empty => exact (firstCut_nil hc).elim
  | last _ hn => exact absurd hc.1 (hn _)
  | @cut _ m r hf hr =>
    have := firstCut_unique hf hc
    subst this
    exact ⟨r, rfl, hr⟩

/-- Chunks that end within a common start, and not only because the file ends, are the same. -/
theorem chunks_before {f : Bytes} {cs : List Bytes} (h : Chunking mi ma d f cs) : ∀ {u x y : Bytes} {cs' : List Bytes}, f = u ++ x → Chunking mi ma d (u ++ y) cs' →
    ∀ (base o : Nat) (c : Bytes), (o, c) ∈ place base cs → o + c.length ≤ base + u.length → o + c.length < base + f.length → (o, c) ∈ place base cs' := by
  induction h with
  | empty => intro u x y cs' _ _ base o c hm; simp [place] at hm
  | last _ _ =>
    intro u x y cs' _ _ base o c hm _ hlt
    simp [place] at hm
    obtain ⟨rfl, rfl⟩ := hm
    omega
  | @cut data n r hf hr ih =>
    intro u x y cs' hfu h' base o c hm hle hlt
    have hn := hf.1.2.1
    have htl : (data.take n).length = n := by rw [List.length_take]; omega
    simp only [place, List.mem_cons, Prod.mk.injEq] at hm
    have hnu : n ≤ u.length := by
      rcases hm with ⟨rfl, rfl⟩ | hm
      · omega
      · have := place_off_ge _ _ _ hm
        simp only at this
        omega
    have htake : data.take n = (u ++ y).take n := by
      rw [hfu, List.take_append_of_le_length hnu, List.take_append_of_le_length hnu]
    obtain ⟨r', rfl, hr'⟩ := chunking_first h' (firstCut_congr (by simp; omega) htake hf)
    simp only [place, List.mem_cons, Prod.mk.injEq]
    rcases hm with ⟨rfl, rfl⟩ | hm
    · exact Or.inl ⟨rfl, htake⟩
    · refine Or.inr ?_
      rw [← htake, htl]
      rw [htl] at hm
      rw [List.drop_append_of_le_length hnu] at hr'
      refine ih (by rw [hfu, List.drop_append_of_le_length hnu]) hr' (base + n) o c hm ?_ ?_
      · rw [List.length_drop]; omega
      · rw [List.length_drop]; omega

theorem edge_split {cs : List Bytes} {b : Nat} (h : EdgeAt cs b) : ∃ a c, cs = a ++ c ∧ a.flatten.length = b := by
  obtain ⟨k, hk⟩ := h
  exact ⟨cs.take k, cs.drop k, (List.take_append_drop k cs).symm, hk⟩

theorem split_edge {a c : List Bytes} : EdgeAt (a ++ c) a.flatten.length := ⟨a.length, by simp⟩

/-- What follows an edge is the same as the chunks of the rest. -/
theorem chunks_rest {a t : Bytes} {cs : List Bytes} (h : Chunking mi ma d (a ++ t) cs) (he : EdgeAt cs a.length) :
    ∃ x y, cs = x ++ y ∧ x.flatten.length = a.length ∧ Chunking mi ma d t y := by
  obtain ⟨x, y, rfl, hl⟩ := edge_split he
  refine ⟨x, y, rfl, hl, ?_⟩
  have := chunking_split h
  rwa [hl, List.drop_left] at this

theorem place_mem_split {cs : List Bytes} : ∀ {base o : Nat} {c : Bytes}, (o, c) ∈ place base cs → ∃ x y, cs = x ++ c :: y ∧ base + x.flatten.length = o := by
  induction cs with
  | nil => intro base o c h; simp [place] at h
  | cons z zs ih =>
    intro base o c h
    simp only [place, List.mem_cons, Prod.mk.injEq] at h
    rcases h with ⟨rfl, rfl⟩ | h
    · exact ⟨[], zs, rfl, by simp⟩
    · obtain ⟨x, y, rfl, hl⟩ := ih h
      exact ⟨z :: x, y, rfl, by rw [List.flatten_cons, List.length_append]; omega⟩

theorem split_place {x y : List Bytes} {c : Bytes} (base : Nat) : (base + x.flatten.length, c) ∈ place base (x ++ c :: y) := by
  rw [place_append]
  exact List.mem_append_right _ List.mem_cons_self

theorem place_moved : ∀ {cs : List Bytes} {base base' o : Nat} {c : Bytes}, (base + o, c) ∈ place base cs → (base' + o, c) ∈ place base' cs := by
  intro cs base base' o c h
  obtain ⟨x, y, rfl, hl⟩ := place_mem_split h
  have : x.flatten.length = o := by omega
  rw [← this]
  exact split_place base'

/-- Chunks behind an edge that both files have where their common end starts are the same. -/
theorem chunks_after {a b t : Bytes} {cs cs' : List Bytes} (h : Chunking mi ma d (a ++ t) cs) (h' : Chunking mi ma d (b ++ t) cs') (he : EdgeAt cs a.length)
    (he' : EdgeAt cs' b.length) {o : Nat} {c : Bytes} (hm : (a.length + o, c) ∈ place 0 cs) : (b.length + o, c) ∈ place 0 cs' := by
  have hne := chunking_nonempty h
  obtain ⟨x, y, rfl, hl, hy⟩ := chunks_rest h he
  obtain ⟨x', y', rfl, hl', hy'⟩ := chunks_rest h' he'
  have := chunking_unique hy hy'
  subst this
  rw [place_append] at hm ⊢
  refine List.mem_append_right _ ?_
  rcases List.mem_append.1 hm with hm | hm
  · have := place_off_lt 0 x (fun c hc => hne c (List.mem_append_left _ hc)) _ hm
    simp only at this
    omega
  · rw [Nat.zero_add] at hm ⊢
    rw [hl] at hm
    rw [hl']
    exact place_moved hm

theorem take_drop_window {t : Bytes} {s n m s' : Nat} (h : s + n = s' + m) (hn : 48 ≤ n) (hm : 48 ≤ m) :
    ((t.drop s).take n).drop (n - 48) = ((t.drop s').take m).drop (m - 48) := by
  rw [List.drop_take, List.drop_take, List.drop_drop, List.drop_drop]
  have e1 : s + (n - 48) = s' + (m - 48) := by omega
  have e2 : n - (n - 48) = m - (m - 48) := by omega
  rw [e1, e2]

/-- If the one file is cut at `e` by its hash, and the other one starts a chunk later than the one before that cut, but far enough
before `e`, it is cut there as well. -/
theorem firstCut_later {t : Bytes} {s s2 n : Nat} (hc : FirstCut mi ma d (t.drop s) n) (hma : n < ma) (h1 : s ≤ s2) (h2 : s2 + mi ≤ s + n) (h3 : s2 + 48 ≤ s + n) :
    FirstCut mi ma d (t.drop s2) (s + n - s2) := by
  have hlen := hc.1.2.1
  rw [List.length_drop] at hlen
  refine ⟨⟨by omega, by rw [List.length_drop]; omega, Or.inr ⟨by omega, ?_⟩⟩, ?_⟩
  · rcases hc.1.2.2 with h | ⟨_, h⟩
    · omega
    · unfold hashAt at h ⊢
      rw [take_drop_window (t := t) (s := s2) (n := s + n - s2) (m := n) (s' := s) (by omega) (by omega) hc.1.1]
      exact h
  · rintro m hm ⟨g1, g2, g3⟩
    rw [List.length_drop] at g2
    refine hc.2 (m + (s2 - s)) (by omega) ⟨by omega, by rw [List.length_drop]; omega, ?_⟩
    rcases g3 with g3 | ⟨g3, g4⟩
    · exact Or.inl (by omega)
    · refine Or.inr ⟨by omega, ?_⟩
      unfold hashAt at g4 ⊢
      rw [take_drop_window (t := t) (s := s) (n := m + (s2 - s)) (m := m) (s' := s2) (by omega) (by omega) g1]
      exact g4

/-- A chunk that is not the last one ends at the first cut. -/
theorem chunk_cut {f : Bytes} {x y : List Bytes} {c : Bytes} (h : Chunking mi ma d f (x ++ c :: y)) (hlt : x.flatten.length + c.length < f.length) :
    FirstCut mi ma d (f.drop x.flatten.length) c.length := by
  have hs := chunking_split h
  have hl : (f.drop x.flatten.length).length = f.length - x.flatten.length := List.length_drop
  generalize f.drop x.flatten.length = g at hs hl
  generalize hz : c :: y = z at hs
  cases hs with
  | empty => cases hz
  | last _ _ =>
    simp at hz
    obtain ⟨rfl, rfl⟩ := hz
    omega
  | @cut _ n r hf hr =>
    simp at hz
    obtain ⟨rfl, rfl⟩ := hz
    rw [List.length_take, Nat.min_eq_left hf.1.2.1]
    exact hf

theorem edges_meet {a b t : Bytes} {cs cs' : List Bytes} (h : Chunking mi ma d (a ++ t) cs) (h' : Chunking mi ma d (b ++ t) cs') {s s2 : Nat} {c : Bytes}
    (hm : (a.length + s, c) ∈ place 0 cs) (hlast : s + c.length < t.length) (hma : c.length < ma) (he : EdgeAt cs' (b.length + s2)) (h1 : s ≤ s2)
    (h2 : s2 + mi ≤ s + c.length) (h3 : s2 + 48 ≤ s + c.length) : EdgeAt cs (a.length + (s + c.length)) ∧ EdgeAt cs' (b.length + (s + c.length)) := by
  obtain ⟨x, y, rfl, hl⟩ := place_mem_split hm
  rw [Nat.zero_add] at hl
  have hc := chunk_cut h (by rw [hl, List.length_append]; omega)
  constructor
  · have := split_edge (a := x ++ [c]) (c := y)
    rw [List.append_assoc, List.singleton_append] at this
    rw [show a.length + (s + c.length) = (x ++ [c]).flatten.length by simp; rw [List.length_flatten] at hl; omega]
    exact this
  · obtain ⟨x', y', rfl, hl'⟩ := edge_split he
    have hs := chunking_split h'
    rw [hl, List.drop_append, List.drop_eq_nil_of_le (by omega), List.nil_append, Nat.add_sub_cancel_left] at hc
    rw [hl', List.drop_append, List.drop_eq_nil_of_le (by omega), List.nil_append, Nat.add_sub_cancel_left] at hs
    obtain ⟨r, rfl, -⟩ := chunking_first hs (firstCut_later hc hma h1 h2 h3)
    have := split_edge (a := x' ++ [(t.drop s2).take (s + c.length - s2)]) (c := r)
    rw [List.append_assoc, List.singleton_append] at this
    have e : b.length + (s + c.length) = (x' ++ [(t.drop s2).take (s + c.length - s2)]).flatten.length := by
      rw [List.flatten_append, List.length_append, hl']
      simp
      omega
    rw [e]
    exact this

/-- How many chunks fit between two positions. -/
theorem chunks_between (L lo hi : Nat) : ∀ (cs : List Bytes) (base : Nat), (∀ c ∈ cs.dropLast, L ≤ c.length) →
    ((place base cs).filter (fun x => decide (lo ≤ x.1 ∧ x.1 + x.2.length ≤ hi))).length * L ≤ (hi - max lo base) + L
  | [], _, _ => by simp [place]
  | [c], base, _ => by
    rw [show place base [c] = [(base, c)] from rfl]
    refine Nat.le_trans (Nat.mul_le_mul_right L (List.length_filter_le _ _)) ?_
    simp
  | c :: c' :: r, base, h => by
    have hc : L ≤ c.length := h c (by simp)
    have ih := chunks_between L lo hi (c' :: r) (base + c.length) fun z hz => h z (by simp at hz ⊢; exact Or.inr hz)
    rw [show place base (c :: c' :: r) = (base, c) :: place (base + c.length) (c' :: r) from rfl, List.filter_cons]
    split
    · next hw =>
      simp at hw
      rw [List.length_cons, Nat.succ_mul]
      omega
    · omega

end Csn.Proof
