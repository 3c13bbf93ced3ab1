import Verif.Spec.Chunking
/-
The images of the end-to-end tests (test/e2e/csn_test.py).
-/
namespace Csn.Spec

/-- csn_test.py:25-48 `Chunk.make`. -/
def made (size : Nat) (start : UInt8) : List UInt8 :=
  if size = 256 * 1024 then [start] ++ List.replicate (size - 1) 0
  else [start] ++ List.replicate (size - 1 - 48) 0 ++ (List.replicate 46 0 ++ [0x05, 0x8b])

end Csn.Spec
