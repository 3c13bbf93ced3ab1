import Verif.Model.Index
import Verif.Proof.Wp
/-
Facts about index.c.
-/
namespace Csn.Proof
open Csn Spec

/-- Representation invariant of an index. -/
structure IndexInv (idx : Index) : Prop where
  cap : idx.cap = idx.space * 48
  small : idx.cap < 2 ^ 63
  fits : idx.entries.length ≤ idx.space
  sorted : idx.sorted = true → SortedById idx.entries

theorem allocPure_small {n : Nat} {mem : List Bool} (h : (allocPure n mem).1 = true) : n < 2 ^ 63 := by
  unfold allocPure at h
  simp only [Bool.and_eq_true, decide_eq_true_eq] at h
  exact h.2

theorem allocPure_ok {n : Nat} {mem : List Bool} (h : n < 2 ^ 63) (hm : false ∉ mem) :
    (allocPure n mem).1 = true := by
  unfold allocPure memNext
  cases mem with
  | nil => simp [h]
  | cons b r => cases b <;> simp_all

theorem allocPure_suffix (n : Nat) (mem : List Bool) : (allocPure n mem).2 <:+ mem := by
  unfold allocPure memNext
  cases mem with
  | nil => simp
  | cons b r => simp

theorem wp_indexInit {n : Nat} {Q : Option Index → World → Prop} {S : Stop → World → Prop} {w : World}
    (hok : ∀ idx m, IndexInv idx → idx.entries = [] → m <:+ w.mem → 0 < n → idx.space = n → Q (some idx) { w with mem := m })
    (hfail : ∀ m, m <:+ w.mem → (false ∈ w.mem ∨ 2 ^ 63 ≤ n * 48) → 0 < n → Q none { w with mem := m })
    (habort : n = 0 → S .abort w) : wp (indexInit n) Q S w := by
  unfold indexInit
  split
  · next h => exact wp_stop (habort h)
  · next h =>
    refine wp_bind (wp_alloc ?_)
    cases hb : (allocPure (n * entrySize) w.mem).1 with
    | true =>
      simp only [Bool.not_true, Bool.false_eq_true, if_false]
      refine wp_pure (hok _ _ ⟨rfl, allocPure_small hb, by simp, by simp⟩ rfl (allocPure_suffix _ _) (by omega) rfl)
    | false =>
      simp only [Bool.not_false, if_true]
      refine wp_pure (hfail _ (allocPure_suffix _ _) ?_ (by omega))
      by_cases h1 : false ∈ w.mem
      · exact Or.inl h1
      · right
        by_cases h2 : n * entrySize < 2 ^ 63
        · rw [allocPure_ok h2 h1] at hb; cases hb
        · unfold entrySize at h2; omega

theorem indexGrow_spec (idx : Index) (mem : List Bool) (h : IndexInv idx) :
    ∃ b idx' m, indexGrow idx mem = (b, idx', m) ∧ IndexInv idx' ∧ idx'.entries = idx.entries ∧
      idx'.sorted = idx.sorted ∧ m <:+ mem ∧
      (b = true → idx'.entries.length < idx'.space ∧ idx.space ≤ idx'.space ∧
        (idx.entries.length < idx.space → idx' = idx)) ∧
      (b = false → idx' = idx ∧ (false ∈ mem ∨ 2 ^ 62 ≤ idx.entries.length * 48)) := by
  obtain ⟨h1, h2, h3, h4⟩ := h
  unfold indexGrow
  split
  · next hge =>
    have e1 : idx.space * 12 % 2 ^ 64 = idx.space * 12 := Nat.mod_eq_of_lt (by omega)
    simp only [e1]
    have e2 : (idx.space * 12 / 10 + 1) * entrySize % 2 ^ 64 = (idx.space * 12 / 10 + 1) * 48 :=
      Nat.mod_eq_of_lt (by unfold entrySize; omega)
    rw [e2]
    cases hb : (allocPure ((idx.space * 12 / 10 + 1) * 48) mem) with
    | mk ok m =>
      have hs : m <:+ mem := by
        have := allocPure_suffix ((idx.space * 12 / 10 + 1) * 48) mem
        rw [hb] at this; exact this
      simp only
      cases ok with
      | true =>
        have := allocPure_small (n := (idx.space * 12 / 10 + 1) * 48) (mem := mem) (by rw [hb])
        refine ⟨true, _, m, rfl, ⟨rfl, this, by simp only; omega, h4⟩, rfl, rfl, hs, ?_, by simp⟩
        intro _
        exact ⟨by simp only; omega, by simp only; omega, by omega⟩
      | false =>
        refine ⟨false, idx, m, by simp, ⟨h1, h2, h3, h4⟩, rfl, rfl, hs, by simp, fun _ => ⟨rfl, ?_⟩⟩
        by_cases hf : false ∈ mem
        · exact Or.inl hf
        · right
          by_cases hlt : (idx.space * 12 / 10 + 1) * 48 < 2 ^ 63
          · have := allocPure_ok hlt hf
            rw [hb] at this; cases this
          · omega
  · next hlt =>
    exact ⟨true, idx, mem, rfl, ⟨h1, h2, h3, h4⟩, rfl, rfl, List.suffix_refl _,
      fun _ => ⟨by omega, by omega, fun _ => rfl⟩, by simp⟩

theorem indexInsertPure_spec (idx : Index) (off len : Nat) (id : Id) (mem : List Bool) (h : IndexInv idx)
    (hlen : len ≠ 0) :
    ∃ r idx' m, indexInsertPure idx off len id mem = (.ok r, idx', m) ∧ IndexInv idx' ∧ m <:+ mem ∧
      idx.space ≤ idx'.space ∧
      ((r = some idx.entries.length ∧ idx'.entries = idx.entries ++ [⟨off, len, false, id⟩]) ∨
       (r = none ∧ idx' = idx ∧ (false ∈ mem ∨ 2 ^ 62 ≤ idx.entries.length * 48))) := by
  obtain ⟨b, idx1, m, e, hi, he, hso, hm, ht, hf⟩ := indexGrow_spec idx mem h
  unfold indexInsertPure
  rw [if_neg hlen, e]
  cases b with
  | false =>
    refine ⟨none, idx1, m, rfl, hi, hm, ?_, Or.inr ⟨rfl, hf rfl⟩⟩
    rw [(hf rfl).1]; exact Nat.le_refl _
  | true =>
    obtain ⟨t1, t2, t3⟩ := ht rfl
    have hcap := hi.cap
    simp only
    rw [if_neg (by unfold entrySize; omega)]
    refine ⟨_, _, m, rfl, ⟨hi.cap, hi.small, ?_, by simp⟩, hm, t2, Or.inl ⟨by rw [he], by simp only; rw [he]⟩⟩
    simp only [List.length_append, List.length_singleton]; omega

/-- An insertion only fails for want of room. -/
theorem indexInsertPure_full {idx idx' : Index} {off len : Nat} {id : Id} {mem m : List Bool}
    (h : indexInsertPure idx off len id mem = (.ok none, idx', m)) : idx.space ≤ idx.entries.length := by
  unfold indexInsertPure at h
  split at h
  · simp at h
  · by_cases hge : idx.entries.length ≥ idx.space
    · exact hge
    · have e : indexGrow idx mem = (true, idx, mem) := by simp [indexGrow, hge]
      rw [e] at h
      simp only at h
      split at h <;> simp at h

theorem indexQuery_spec (lib : Lib) (hl : lib.Conforms) (idx : Index) (id : Id) (h : IndexInv idx) :
    ∃ r idx', indexQuery lib idx id = (r, idx') ∧ IndexInv idx' ∧ idx'.entries.Perm idx.entries ∧
      idx'.space = idx.space ∧ idx'.cap = idx.cap ∧ SortedById idx'.entries ∧ idx'.sorted = true ∧
      (idx.sorted = true → idx' = idx) ∧
      (∀ i, r = some i → ∃ e, idx'.entries[i]? = some e ∧ e.id = id ∧ e ∈ idx.entries) ∧
      (r = none → ∀ e ∈ idx.entries, e.id ≠ id) := by
  unfold indexQuery
  cases hs : idx.sorted with
  | true =>
    have hso := h.sorted hs
    refine ⟨_, _, rfl, ?_, ?_, ?_, ?_, ?_, ?_, ?_, ?_, ?_⟩
    all_goals simp only [if_true]
    · exact h
    · exact List.Perm.refl _
    · exact hso
    · exact hs
    · intro _; trivial
    · intro i hi
      obtain ⟨e, e1, e2⟩ := hl.found _ _ _ hso hi
      exact ⟨e, e1, e2, List.mem_of_getElem? e1⟩
    · intro hn; exact hl.missing _ _ hso hn
  | false =>
    have hso := hl.sorts idx.entries
    have hp := hl.perm idx.entries
    refine ⟨_, _, rfl, ?_, ?_, ?_, ?_, ?_, ?_, ?_, ?_, ?_⟩
    all_goals simp only [Bool.false_eq_true, if_false, indexSort]
    · exact ⟨h.cap, h.small, by simp only; rw [hp.length_eq]; exact h.fits, fun _ => hso⟩
    · exact hp
    · exact hso
    · intro h; trivial
    · intro i hi
      obtain ⟨e, e1, e2⟩ := hl.found _ _ _ hso hi
      exact ⟨e, e1, e2, hp.mem_iff.1 (List.mem_of_getElem? e1)⟩
    · intro hn e he
      exact hl.missing _ _ hso hn e (hp.mem_iff.2 he)

/-- Insert an entry before the first one that is not smaller. -/
def insertById (x : Entry) : List Entry → List Entry
  | [] => [x]
  | y :: r => if memcmpLe x.id y.id then x :: y :: r else y :: insertById x r

def insertionSort : List Entry → List Entry
  | [] => []
  | x :: r => insertById x (insertionSort r)

/-- A concrete conforming library: insertion sort and linear search. -/
def refLib : Lib where
  qsort := insertionSort
  bsearch id l := l.findIdx? (fun e => e.id == id)

theorem memcmpLe_trans : ∀ a b c, memcmpLe a b = true → memcmpLe b c = true → memcmpLe a c = true
  | [], _, _ => by intros; simp [memcmpLe]
  | _ :: _, [], _ => by simp [memcmpLe]
  | _ :: _, _ :: _, [] => by simp [memcmpLe]
  | a :: x, b :: y, c :: z => by
    have ih := memcmpLe_trans x y z
    simp only [memcmpLe, Bool.or_eq_true, decide_eq_true_eq, Bool.and_eq_true, beq_iff_eq]
    rintro (h | ⟨h, h'⟩) (g | ⟨g, g'⟩)
    · exact Or.inl (UInt8.lt_trans h g)
    · subst g; exact Or.inl h
    · subst h; exact Or.inl g
    · subst h g; exact Or.inr ⟨rfl, ih h' g'⟩

theorem memcmpLe_total : ∀ a b, (memcmpLe a b || memcmpLe b a) = true
  | [], _ => by simp [memcmpLe]
  | _ :: _, [] => by simp [memcmpLe]
  | a :: x, b :: y => by
    have ih := memcmpLe_total x y
    simp only [memcmpLe, Bool.or_eq_true, decide_eq_true_eq, Bool.and_eq_true, beq_iff_eq] at ih ⊢
    by_cases h : a < b
    · exact Or.inl (Or.inl h)
    · by_cases h2 : b < a
      · exact Or.inr (Or.inl h2)
      · have : a = b := UInt8.le_antisymm (UInt8.not_lt.1 h2) (UInt8.not_lt.1 h)
        subst this
        rcases ih with ih | ih
        · exact Or.inl (Or.inr ⟨rfl, ih⟩)
        · exact Or.inr (Or.inr ⟨rfl, ih⟩)

theorem insertById_perm (x : Entry) (l : List Entry) : (insertById x l).Perm (x :: l) := by
  induction l with
  | nil => exact List.Perm.refl _
  | cons y r ih =>
    unfold insertById
    split
    · exact List.Perm.refl _
    · exact (List.Perm.cons y ih).trans (List.Perm.swap x y r)

theorem insertById_sorted (x : Entry) (l : List Entry) (h : SortedById l) : SortedById (insertById x l) := by
  induction l with
  | nil => simp [insertById, SortedById]
  | cons y r ih =>
    unfold SortedById at h ih ⊢
    rw [List.pairwise_cons] at h
    unfold insertById
    split
    · next hle =>
      rw [List.pairwise_cons]
      refine ⟨?_, List.pairwise_cons.2 h⟩
      intro z hz
      rcases List.mem_cons.1 hz with hz | hz
      · subst hz; exact hle
      · exact memcmpLe_trans _ _ _ hle (h.1 z hz)
    · next hle =>
      rw [List.pairwise_cons]
      refine ⟨?_, ih h.2⟩
      intro z hz
      rcases List.mem_cons.1 ((insertById_perm x r).mem_iff.1 hz) with hz | hz
      · subst hz
        have := memcmpLe_total z.id y.id
        simp only [Bool.or_eq_true] at this
        rcases this with h | h
        · exact absurd h hle
        · exact h
      · exact h.1 z hz

theorem insertionSort_perm (l : List Entry) : (insertionSort l).Perm l := by
  induction l with
  | nil => exact List.Perm.refl _
  | cons x r ih => exact (insertById_perm x _).trans (List.Perm.cons x ih)

theorem insertionSort_sorted (l : List Entry) : SortedById (insertionSort l) := by
  induction l with
  | nil => simp [insertionSort, SortedById]
  | cons x r ih => exact insertById_sorted x _ ih

theorem refLib_conforms : refLib.Conforms where
  perm l := insertionSort_perm l
  sorts l := insertionSort_sorted l
  found id l i _ h := by
    simp only [refLib] at h
    rw [List.findIdx?_eq_some_iff_getElem] at h
    obtain ⟨h1, h2, _⟩ := h
    exact ⟨l[i], by simp [h1], by simpa using h2⟩
  missing id l _ h e he := by
    simp only [refLib, List.findIdx?_eq_none_iff] at h
    simpa using h e he

end Csn.Proof
