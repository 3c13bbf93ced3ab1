import Verif.Model.Chunker
/-
The regions an index describes.
-/
namespace Csn.Spec
open Csn

/-- The regions described by the table entries `es` (end offset, ID) behind offset `last`: each begins where the
previous one ended.  Lengths are computed modulo 2^64; entries of 4 GiB or more are left out (they are ignored, and
so are entries with a smaller end offset than the previous one).  For ascending offsets these are the `consecutive`
regions. -/
def delivered : Nat → List (Nat × Bytes) → List Seg
  | _, [] => []
  | last, (e, id) :: r =>
    if (e + 2 ^ 64 - last) % 2 ^ 64 < 2 ^ 32 then
      ⟨last, (e + 2 ^ 64 - last) % 2 ^ 64, id⟩ :: delivered e r
    else delivered last r


end Csn.Spec
