import Verif.Spec.Chunking
/-
Specification of the chunker's interface (chunker.h): what a caller that feeds a chunker may rely on.
-/
namespace Csn.Spec

/-- What a caller does with a chunker: scan a buffer, discard what was scanned (`chunker_reset`), or take the chunk ID and
start the next chunk (`chunker_get_id`, `chunker_reset`). -/
inductive Act where
  | scan (buf : List UInt8)
  | reset
  | take
  deriving DecidableEq, Repr

/-- What the caller sees of it: the position of a boundary in the buffer, no boundary, nothing, the chunk ID. -/
inductive Answer where
  | boundary (n : Nat)
  | noBoundary
  | done
  | id (i : List UInt8)
  deriving DecidableEq, Repr

/-- `Fed mi ma d H q xs`: a chunker that was given `q` since its last reset may answer as in `xs`. -/
inductive Fed (mi ma d : Nat) (H : List UInt8 → List UInt8) : List UInt8 → List (Act × Answer) → Prop where
  | nil (q) : Fed mi ma d H q []
  | hit (q buf j xs) : j ≤ buf.length → FirstCut mi ma d (q ++ buf) (q.length + j) → Fed mi ma d H (q ++ buf.take j) xs →
      Fed mi ma d H q ((.scan buf, .boundary j) :: xs)
  | miss (q buf xs) : (∀ n, ¬ Cut mi ma d (q ++ buf) n) → Fed mi ma d H (q ++ buf) xs →
      Fed mi ma d H q ((.scan buf, .noBoundary) :: xs)
  | reset (q xs) : Fed mi ma d H [] xs → Fed mi ma d H q ((.reset, .done) :: xs)
  | take (q xs) : Fed mi ma d H [] xs → Fed mi ma d H q ((.take, .id (H q)) :: xs)

end Csn.Spec
