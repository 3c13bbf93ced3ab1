/-
How much memory chunk indices may take: 48 bytes for each entry there is room for.
-/
namespace Csn.Spec

/-- Entries there is room for after the entries of an index with room for `expected` have become `n`. -/
def grownLimit (expected n : Nat) : Nat := if expected ≤ 12 * n / 10 + 1 then 12 * n / 10 + 1 else expected

/-- A file of `size` bytes has at most so many chunks: all but the last one have the minimal size, and the window of the
rolling hash has 48 bytes. -/
def chunkLimit (min size : Nat) : Nat := size / (if min ≤ 48 then 48 else min) + 1

/-- Entries there is room for after a file of `size` bytes has been scanned. -/
def scanLimit (min avg size : Nat) : Nat := grownLimit (12 * size / avg / 10) (chunkLimit min size)

/-- Entries an index file of `length` bytes lists. -/
def listedIn (length : Nat) : Nat := (length - 104) / 40

end Csn.Spec
