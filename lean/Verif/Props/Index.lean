import Verif.Proof.Index
import Verif.Spec.Multimap
/-
C11, C12: the chunk index.
-/
namespace Csn.Props
open Csn Spec Proof

/-- Run a history of operations on an index, collecting the answers. -/
def runIndex (lib : Lib) : List IndexOp → Index → List Bool → List IndexAns → Res (List IndexAns) × Index
  | [], idx, _, as => (.ok as, idx)
  | .insert off len id :: r, idx, mem, as =>
    match indexInsertPure idx off len id mem with
    | (.stop s, idx, _) => (.stop s, idx)
    | (.ok p, idx, mem) => runIndex lib r idx mem (as ++ [.inserted p.isSome])
  | .lookup id :: r, idx, mem, as =>
    match indexQuery lib idx id with
    | (none, idx) => runIndex lib r idx mem (as ++ [.found none])
    | (some i, idx) =>
      match idx.entries[i]? with
      | none => (.stop .ub, idx)
      | some e => runIndex lib r idx mem (as ++ [.found (some (e.start, e.len))])

/-- A fresh index for `expected` entries, as `index_init` leaves it. -/
def freshIndex (expected : Nat) : Index := ⟨false, expected, expected * 48, []⟩

/-- The freshly initialised index is what `index_init` returns. -/
theorem indexInit_fresh (expected : Nat) (w w' : World) (idx : Index)
    (h : indexInit expected w = (.ok (some idx), w')) :
    idx = freshIndex expected ∧ 0 < expected ∧ expected * 48 < 2 ^ 63 := by
  unfold indexInit at h
  split at h
  · cases h
  · next hne =>
    simp only [bind, M.bind, M.alloc] at h
    cases hb : (allocPure (expected * entrySize) w.mem).1 with
    | true =>
      simp only [hb, Bool.not_true, Bool.false_eq_true, if_false, pure, M.pure, Prod.mk.injEq, Res.ok.injEq,
        Option.some.injEq] at h
      have := allocPure_small hb
      unfold entrySize at this
      exact ⟨h.1.symm, by omega, this⟩
    | false => simp [hb, pure, M.pure] at h

theorem freshIndex_inv (expected : Nat) (h : expected * 48 < 2 ^ 63) : IndexInv (freshIndex expected) :=
  ⟨rfl, h, by simp [freshIndex], by simp [freshIndex]⟩

/-- The entries stored are exactly the successful insertions of the history so far. -/
def Stored (ops : List IndexOp) (as : List IndexAns) (es : List Entry) : Prop :=
  (∀ e ∈ es, ∃ j, InsertedAt ops as j e.start e.len e.id) ∧
  (∀ j off len id, InsertedAt ops as j off len id → ∃ e ∈ es, e.start = off ∧ e.len = len ∧ e.id = id)

theorem insertedAt_append {ops ops' : List IndexOp} {as as' : List IndexAns} {j off len : Nat} {id : Id}
    (h : InsertedAt ops as j off len id) : InsertedAt (ops ++ ops') (as ++ as') j off len id := by
  obtain ⟨h1, h2⟩ := h
  have l1 := (List.getElem?_eq_some_iff.1 h1).1
  have l2 := (List.getElem?_eq_some_iff.1 h2).1
  exact ⟨by rw [List.getElem?_append_left l1]; exact h1, by rw [List.getElem?_append_left l2]; exact h2⟩

theorem insertedAt_snoc {ops : List IndexOp} {as : List IndexAns} {o : IndexOp} {a : IndexAns} {j off len : Nat}
    {id : Id} (hl : as.length = ops.length) (h : InsertedAt (ops ++ [o]) (as ++ [a]) j off len id) :
    InsertedAt ops as j off len id ∨ (j = ops.length ∧ o = .insert off len id ∧ a = .inserted true) := by
  obtain ⟨h1, h2⟩ := h
  by_cases hj : j < ops.length
  · rw [List.getElem?_append_left hj] at h1
    rw [List.getElem?_append_left (by omega)] at h2
    exact Or.inl ⟨h1, h2⟩
  · have l1 := (List.getElem?_eq_some_iff.1 h1).1
    simp at l1
    have : j = ops.length := by omega
    subst this
    simp at h1
    rw [← hl] at h2
    simp at h2
    exact Or.inr ⟨rfl, h1, h2⟩

/-- A history stays a multimap history when a correctly answered operation is appended. -/
theorem history_snoc {ops : List IndexOp} {as : List IndexAns} {o : IndexOp} {a : IndexAns}
    (h : MultimapHistory ops as)
    (hq : ∀ id, o = .lookup id →
      (∃ off len j, a = .found (some (off, len)) ∧ InsertedAt ops as j off len id) ∨
      (a = .found none ∧ ∀ j off len, ¬ InsertedAt ops as j off len id)) :
    MultimapHistory (ops ++ [o]) (as ++ [a]) := by
  obtain ⟨hl, hh⟩ := h
  refine ⟨by simp [hl], ?_⟩
  intro i id hi
  by_cases hlt : i < ops.length
  · rw [List.getElem?_append_left hlt] at hi
    rcases hh i id hi with ⟨off, len, j, h1, h2, h3⟩ | ⟨h1, h2⟩
    · left
      exact ⟨off, len, j, by rw [List.getElem?_append_left (by omega)]; exact h1, h2, insertedAt_append h3⟩
    · right
      refine ⟨by rw [List.getElem?_append_left (by omega)]; exact h1, ?_⟩
      intro j hj off len hins
      rcases insertedAt_snoc hl hins with h | ⟨h, _, _⟩
      · exact h2 j hj off len h
      · omega
  · have l1 := (List.getElem?_eq_some_iff.1 hi).1
    simp at l1
    have : i = ops.length := by omega
    subst this
    simp at hi
    rcases hq id hi with ⟨off, len, j, h1, h2⟩ | ⟨h1, h2⟩
    · left
      have := (List.getElem?_eq_some_iff.1 h2.1).1
      exact ⟨off, len, j, by rw [← hl]; simp [h1], this, insertedAt_append h2⟩
    · right
      refine ⟨by rw [← hl]; simp [h1], ?_⟩
      intro j hj off len hins
      rcases insertedAt_snoc hl hins with h | ⟨h, _, _⟩
      · exact h2 j off len h
      · omega

theorem runIndex_spec (lib : Lib) (hlib : lib.Conforms) :
    ∀ (todo done : List IndexOp) (idx : Index) (mem : List Bool) (as : List IndexAns),
      IndexInv idx → MultimapHistory done as → Stored done as idx.entries →
      (∀ off len id, .insert off len id ∈ todo → len ≠ 0) →
      ∃ as' idx', runIndex lib todo idx mem as = (.ok as', idx') ∧ IndexInv idx' ∧
        MultimapHistory (done ++ todo) as' ∧ Stored (done ++ todo) as' idx'.entries := by
  intro todo
  induction todo with
  | nil =>
    intro done idx mem as hi hh hs _
    exact ⟨as, idx, rfl, hi, by simpa using hh, by simpa using hs⟩
  | cons o todo ih =>
    intro done idx mem as hi hh hs hlen
    have hl := hh.1
    cases o with
    | insert off len id =>
      obtain ⟨r, idx', m, e, hi', hm, hsp, hcase⟩ := indexInsertPure_spec idx off len id mem hi
        (hlen off len id (by simp))
      simp only [runIndex, e]
      have := ih (done ++ [.insert off len id]) idx' m (as ++ [.inserted r.isSome]) hi'
        (history_snoc hh (by intro id h; cases h)) ?_ (fun a b c h => hlen a b c (by simp [h]))
      · simpa using this
      · rcases hcase with ⟨h1, h2⟩ | ⟨h1, h2, _⟩
        · subst h1
          rw [h2]
          constructor
          · intro x hx
            simp at hx
            rcases hx with hx | hx
            · obtain ⟨j, hj⟩ := hs.1 x hx
              exact ⟨j, insertedAt_append hj⟩
            · subst hx
              refine ⟨done.length, ?_, ?_⟩
              · simp
              · rw [← hl]; simp
          · intro j o l i hj
            rcases insertedAt_snoc hl hj with h | ⟨_, h, _⟩
            · obtain ⟨x, hx, hx'⟩ := hs.2 _ _ _ _ h
              exact ⟨x, by simp [hx], hx'⟩
            · injection h with a b c
              subst a b c
              exact ⟨_, by simp; right; rfl, rfl, rfl, rfl⟩
        · subst h1 h2
          constructor
          · intro x hx
            obtain ⟨j, hj⟩ := hs.1 x hx
            exact ⟨j, insertedAt_append hj⟩
          · intro j o l i hj
            rcases insertedAt_snoc hl hj with h | ⟨_, _, h⟩
            · exact hs.2 _ _ _ _ h
            · simp at h
    | lookup id =>
      obtain ⟨r, idx', e, hi', hp, _, _, _, _, _, hf, hn⟩ := indexQuery_spec lib hlib idx id hi
      have hs' : ∀ a, Stored (done ++ [.lookup id]) (as ++ [a]) idx'.entries := by
        intro a
        constructor
        · intro x hx
          obtain ⟨j, hj⟩ := hs.1 x (hp.mem_iff.1 hx)
          exact ⟨j, insertedAt_append hj⟩
        · intro j o l i hj
          rcases insertedAt_snoc hl hj with h | ⟨_, h, _⟩
          · obtain ⟨x, hx, hx'⟩ := hs.2 _ _ _ _ h
            exact ⟨x, hp.mem_iff.2 hx, hx'⟩
          · cases h
      simp only [runIndex, e]
      cases r with
      | none =>
        have := ih (done ++ [.lookup id]) idx' mem (as ++ [.found none]) hi' (history_snoc hh ?_) (hs' _)
          (fun a b c h => hlen a b c (by simp [h]))
        · simpa using this
        · intro id' h
          injection h with h
          subst h
          right
          refine ⟨rfl, fun j off len hj => ?_⟩
          obtain ⟨x, hx, _, _, hx'⟩ := hs.2 _ _ _ _ hj
          exact hn rfl x hx hx'
      | some i =>
        obtain ⟨x, h1, h2, h3⟩ := hf i rfl
        simp only [h1]
        have := ih (done ++ [.lookup id]) idx' mem (as ++ [.found (some (x.start, x.len))]) hi'
          (history_snoc hh ?_) (hs' _) (fun a b c h => hlen a b c (by simp [h]))
        · simpa using this
        · intro id' h
          injection h with h
          subst h
          left
          obtain ⟨j, hj⟩ := hs.1 x h3
          exact ⟨_, _, j, rfl, by rw [← h2]; exact hj⟩

/-! ### C11 -/

/-- **C11**: every finite history of insertions (of non-empty chunks) and lookups on an index
created by `index_init` runs to its end and is answered as by a multimap, whatever qsort and
bsearch do within the C standard's contract and whichever allocations fail. -/
theorem C11_index_is_multimap (lib : Lib) (hlib : lib.Conforms) (expected : Nat) (w w' : World) (idx : Index)
    (hinit : indexInit expected w = (.ok (some idx), w')) (ops : List IndexOp) (mem : List Bool)
    (hlen : ∀ off len id, .insert off len id ∈ ops → len ≠ 0) :
    ∃ as idx', runIndex lib ops idx mem [] = (.ok as, idx') ∧ MultimapHistory ops as := by
  obtain ⟨h1, h2, h3⟩ := indexInit_fresh expected w w' idx hinit
  subst h1
  obtain ⟨as, idx', e, _, hh, _⟩ := runIndex_spec lib hlib ops [] (freshIndex expected) mem []
    (freshIndex_inv _ h3) ⟨rfl, by simp⟩ ⟨by simp [freshIndex], by intro j o l i h; simp [InsertedAt] at h⟩ hlen
  exact ⟨as, idx', e, by simpa using hh⟩

/-- Insertions are only refused when an allocation fails or there are already more than 2^56
entries. -/
theorem C11_insertions_succeed (idx : Index) (off len : Nat) (id : Id) (mem : List Bool)
    (hi : IndexInv idx) (hlen : len ≠ 0) (hmem : false ∉ mem) (hsmall : idx.entries.length ≤ 2 ^ 56) :
    ∃ i idx' m, indexInsertPure idx off len id mem = (.ok (some i), idx', m) ∧ IndexInv idx' ∧
      idx'.entries[i]? = some ⟨off, len, false, id⟩ ∧ false ∉ m := by
  obtain ⟨r, idx', m, e, hi', hm, _, h⟩ := indexInsertPure_spec idx off len id mem hi hlen
  rcases h with ⟨h1, h2⟩ | ⟨_, _, h⟩
  · subst h1
    exact ⟨_, idx', m, e, hi', by rw [h2]; simp, fun h => hmem (hm.subset h)⟩
  · rcases h with h | h
    · exact absurd h hmem
    · omega

/-- Not vacuous: three insertions, two with the same ID, starting from room for one entry;
lookups before, between and after. -/
example : runIndex refLib
    [.lookup [1], .insert 0 10 [2], .insert 10 5 [1], .lookup [1], .insert 15 7 [2], .lookup [2], .lookup [3]]
    (freshIndex 1) [] [] =
    (.ok [.found none, .inserted true, .inserted true, .found (some (10, 5)), .inserted true,
      .found (some (0, 10)), .found none],
     ⟨true, 3, 144, [⟨10, 5, false, [1]⟩, ⟨0, 10, false, [2]⟩, ⟨15, 7, false, [2]⟩]⟩) := by decide +kernel

/-! ### C12 -/

/-- **C12**: in every history the number of entries never exceeds the space the index believes to
have, that space is exactly the allocated one, and no operation writes outside it (which would be
the outcome `ub`) or trips an assertion. -/
theorem C12_index_bounds (lib : Lib) (hlib : lib.Conforms) (expected : Nat) (w w' : World) (idx : Index)
    (hinit : indexInit expected w = (.ok (some idx), w')) (ops : List IndexOp) (mem : List Bool)
    (hlen : ∀ off len id, .insert off len id ∈ ops → len ≠ 0) :
    ∃ as idx', runIndex lib ops idx mem [] = (.ok as, idx') ∧
      idx'.entries.length ≤ idx'.space ∧ idx'.cap = idx'.space * 48 ∧ idx'.cap < 2 ^ 63 := by
  obtain ⟨h1, h2, h3⟩ := indexInit_fresh expected w w' idx hinit
  subst h1
  obtain ⟨as, idx', e, hi, _, _⟩ := runIndex_spec lib hlib ops [] (freshIndex expected) mem []
    (freshIndex_inv _ h3) ⟨rfl, by simp⟩ ⟨by simp [freshIndex], by intro j o l i h; simp [InsertedAt] at h⟩ hlen
  exact ⟨as, idx', e, hi.fits, hi.cap, hi.small⟩

/-- **C12**: the allocation grows when it is full: a successful insertion into a full index leaves
strictly more space, and never less. -/
theorem C12_index_grows (idx idx' : Index) (off len : Nat) (id : Id) (mem m : List Bool) (i : Nat)
    (hi : IndexInv idx) (h : indexInsertPure idx off len id mem = (.ok (some i), idx', m)) :
    idx.space ≤ idx'.space ∧ (idx.entries.length = idx.space → idx.space < idx'.space) := by
  have hlen : len ≠ 0 := by
    intro h0
    simp [indexInsertPure, h0] at h
  obtain ⟨r, idx1, m1, e, hi', _, hsp, hc⟩ := indexInsertPure_spec idx off len id mem hi hlen
  rw [h] at e
  simp only [Prod.mk.injEq, Res.ok.injEq] at e
  obtain ⟨e1, e2, e3⟩ := e
  subst e1 e2
  refine ⟨hsp, fun hfull => ?_⟩
  have := hi'.fits
  rcases hc with ⟨_, hc⟩ | ⟨hc, _⟩
  · rw [hc] at this
    simp at this
    omega
  · cases hc

/-- Not vacuous: an index for two entries grows to three on the third insertion. -/
example : (indexInsertPure ⟨true, 2, 96, [⟨0, 4, true, [1]⟩, ⟨4, 4, true, [2]⟩]⟩ 8 4 [3] []) =
    (.ok (some 2), ⟨false, 3, 144, [⟨0, 4, true, [1]⟩, ⟨4, 4, true, [2]⟩, ⟨8, 4, false, [3]⟩]⟩, []) := by
  decide +kernel

end Csn.Props
