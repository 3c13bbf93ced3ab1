/-
Small vocabulary about file contents, independent of the model.
-/
namespace Csn.Spec

/-- `n` bytes of `f` starting at `o` (fewer at the end of the file). -/
def slice (f : List UInt8) (o n : Nat) : List UInt8 := (f.drop o).take n

/-- `g` is `f` with the bytes `d` placed at offset `o`; the gap between the end of `f` and `o`, if
any, reads as zeros.  Stated byte by byte. -/
def Patched (f : List UInt8) (o : Nat) (d : List UInt8) (g : List UInt8) : Prop :=
  ∀ i, g[i]? =
    if o ≤ i ∧ i < o + d.length then d[i - o]?
    else if i < f.length then f[i]?
    else if i < o ∧ d ≠ [] then some 0
    else none

/-- The writes (position, data) follow each other without gap from `a` to `b`; none is empty. -/
def Contig : Nat → List (Nat × List UInt8) → Nat → Prop
  | a, [], b => a = b
  | a, (o, d) :: r, b => o = a ∧ d ≠ [] ∧ Contig (a + d.length) r b

end Csn.Spec
