import Verif.Model.Chunker
/-
Model of index.c / index.h.
-/
namespace Csn

/-- index.h:8-13 `struct index_entry`.  Of `flags` only INDEX_FLAG_VALIDATED (store-local.c:26)
is ever used; it is the Boolean `valid`. -/
structure Entry where
  start : Nat
  len : Nat
  valid : Bool
  id : Id
  deriving DecidableEq, Repr

/-- index.h:15-20 `struct index`.  `entries` holds the first `n_entries` array elements, `space`
is `space_avail`, and `cap` is the size in bytes of the allocation behind the `entries` pointer
(not known to the C code). -/
structure Index where
  sorted : Bool
  space : Nat
  cap : Nat
  entries : List Entry
  deriving DecidableEq, Repr

/-- sizeof(struct index_entry): 8 + 4 + 4 + 32. -/
def entrySize : Nat := 48

/-- `memcmp(a, b, n) <= 0` on byte strings of the same length (index.c:74). -/
def memcmpLe : Bytes → Bytes → Bool
  | [], _ => true
  | _ :: _, [] => false
  | a :: x, b :: y => decide (a < b) || (a == b && memcmpLe x y)

/-- Sorted with respect to `index_entry_compare` (index.c:69-75). -/
def SortedById (l : List Entry) : Prop := l.Pairwise (fun a b => memcmpLe a.id b.id = true)

/-- The C library functions index.c relies on, both with the comparison function of
index.c:69-75.  `bsearch` returns the position of the element found. -/
structure Lib where
  qsort : List Entry → List Entry
  bsearch : Id → List Entry → Option Nat

/-- What the C standard promises about them. -/
structure Lib.Conforms (lib : Lib) : Prop where
  perm : ∀ l, (lib.qsort l).Perm l
  sorts : ∀ l, SortedById (lib.qsort l)
  found : ∀ id l i, SortedById l → lib.bsearch id l = some i → ∃ e, l[i]? = some e ∧ e.id = id
  missing : ∀ id l, SortedById l → lib.bsearch id l = none → ∀ e ∈ l, e.id ≠ id

/-- index.c:7-20 `index_init`; `none` is -1.  calloc checks the product for overflow. -/
def indexInit (expected : Nat) : M (Option Index) := do
  if expected = 0 then M.stop .abort
  else if !(← M.alloc (expected * entrySize)) then return none
  else return some ⟨false, expected, expected * entrySize, []⟩

/-- index.c:37-55: make room for one more entry.  All arithmetic is modulo 2^64.  The first
component is whether the insertion can go on. -/
def indexGrow (idx : Index) (mem : List Bool) : Bool × Index × List Bool :=
  if idx.entries.length ≥ idx.space then
    let newSize := ((idx.space * 12) % 2 ^ 64) / 10 + 1
    let bytes := (newSize * entrySize) % 2 ^ 64
    let (ok, mem) := allocPure bytes mem
    if ok then (true, { idx with space := newSize, cap := bytes }, mem)
    else (false, idx, mem)
  else (true, idx, mem)

/-- index.c:29-67 `index_insert`, as a function of the allocation schedule.  The result is the
position of the new entry (`none` is NULL).  Writing behind the allocation is undefined. -/
def indexInsertPure (idx : Index) (off len : Nat) (id : Id) (mem : List Bool) :
    Res (Option Nat) × Index × List Bool :=
  if len = 0 then (.stop .abort, idx, mem)
  else
    match indexGrow idx mem with
    | (false, idx, mem) => (.ok none, idx, mem)
    | (true, idx, mem) =>
      if (idx.entries.length + 1) * entrySize > idx.cap then (.stop .ub, idx, mem)
      else (.ok (some idx.entries.length),
        { idx with sorted := false, entries := idx.entries ++ [⟨off, len, false, id⟩] }, mem)

/-- index.c:29-67 `index_insert` in the execution monad. -/
def indexInsert (idx : Index) (off len : Nat) (id : Id) : M (Option Nat × Index) := fun w =>
  match indexInsertPure idx off len id w.mem with
  | (.ok r, idx, mem) => (.ok (r, idx), { w with mem := mem })
  | (.stop s, _, mem) => (.stop s, { w with mem := mem })

/-- index.c:77-85 `index_sort`. -/
def indexSort (lib : Lib) (idx : Index) : Index :=
  { idx with entries := lib.qsort idx.entries, sorted := true }

/-- index.c:87-100 `index_query`: the position of the entry found (`none` is NULL), and the
possibly re-sorted index. -/
def indexQuery (lib : Lib) (idx : Index) (id : Id) : Option Nat × Index :=
  let idx := if idx.sorted then idx else indexSort lib idx
  (lib.bsearch id idx.entries, idx)

end Csn
