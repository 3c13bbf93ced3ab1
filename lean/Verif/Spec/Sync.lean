import Verif.Model.Base
import Verif.Spec.Files
import Verif.Spec.Regions
import Verif.Spec.Caibx
/-
Vocabulary about synchronisation runs: which regions of a file match an index, what was written and queried.
-/
namespace Csn.Spec
open Csn

/-- Sum of the lengths of regions: where the last of consecutive regions ends. -/
def total (l : List Seg) : Nat := (l.map (·.len)).sum

/-- The index file behind `ipath` describes the regions `segs`. -/
def Describes (w : World) (ipath : Bytes) (segs : List Seg) : Prop :=
  ∃ i mi av ma n, w.dir ipath = some i ∧ WellFormed (w.data i) mi av ma n ∧ segs = delivered 0 (tableEntries (w.data i) n)

/-- The region of `f` described by `s` exists completely and hashes to the ID. -/
def Matches (H : Bytes → Id) (f : Bytes) (s : Seg) : Prop :=
  (slice f s.off s.len).length = s.len ∧ H (slice f s.off s.len) = s.id

/-- The index file with contents `x` is wrong about a file with contents `f`: one of the regions it describes is there but has
another hash. -/
def WrongAbout (H : Bytes → Id) (x f : Bytes) : Prop :=
  ∃ mi av ma n, WellFormed x mi av ma n ∧ ∃ s ∈ delivered 0 (tableEntries x n),
    (slice f s.off s.len).length = s.len ∧ H (slice f s.off s.len) ≠ s.id

/-- As `Matches`, but nothing is required of empty regions. -/
def Verified (H : Bytes → Id) (f : Bytes) (s : Seg) : Prop := s.len ≠ 0 → Matches H f s

/-- The writes to files in a log: position and data. -/
def writesOf : List Event → List (Nat × Bytes)
  | [] => []
  | .write _ o d :: r => (o, d) :: writesOf r
  | _ :: r => writesOf r

/-- The IDs for which the store chain was queried. -/
def queriesOf : List Event → List Id
  | [] => []
  | .query id :: r => id :: queriesOf r
  | _ :: r => queriesOf r

/-- Which stores of the chain were asked for which IDs. -/
def asksOf : List Event → List (Nat × Id)
  | [] => []
  | .ask k id :: r => (k, id) :: asksOf r
  | _ :: r => asksOf r

/-- `l` without repetitions of the directly preceding element. -/
def runs : List Id → List Id
  | [] => []
  | [a] => [a]
  | a :: b :: r => if a = b then runs (b :: r) else a :: runs (b :: r)

/-- Neighbouring regions with the same ID have the same length. -/
def Regular (l : List Seg) : Prop := ∀ a x y b, l = a ++ x :: y :: b → x.id = y.id → x.len = y.len

/-- `d` at position `o` is a piece of a chunk for region `s`; the chunk's hash is the region's ID (if `R`). -/
def PieceFor (H : Bytes → Id) (R : Prop) (s : Seg) (o : Nat) (d : Bytes) : Prop :=
  ∃ c : Bytes, c.length = s.len ∧ (R → H c = s.id) ∧ ∃ j, o = s.off + j ∧ j + d.length ≤ s.len ∧ d = slice c j d.length

/-- After the events `a` of a run that started with files `w0`, the chunk `id` is needed for the first time: the target
holds the regions before one with this ID - those of `pre` since the start, those of `post` written - and none of them has
this ID. -/
def FirstUse (H : Bytes → Id) (tino : Nat) (w0 : World) (segs : List Seg) (a : List Event) (id : Id) : Prop :=
  ∃ pre post seg rest, segs = pre ++ post ++ seg :: rest ∧ seg.id = id ∧ (∀ s ∈ pre ++ post, s.id ≠ id) ∧
    (∀ s ∈ pre, Matches H (w0.data tino) s) ∧ Contig (total pre) (writesOf a) (total (pre ++ post))

end Csn.Spec
