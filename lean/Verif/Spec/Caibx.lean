/-
Independent specification of the .caibx layout (casync blob index).
-/
namespace Csn.Spec

/-- Little-endian value of a byte list. -/
def le : List UInt8 → Nat
  | [] => 0
  | b :: r => b.toNat + 256 * le r

/-- Little-endian encoding in `n` bytes. -/
def toLe : Nat → Nat → List UInt8
  | 0, _ => []
  | n + 1, v => UInt8.ofNat (v % 256) :: toLe n (v / 256)

/-- The 64-bit field at byte offset `o`. -/
def field (f : List UInt8) (o : Nat) : Nat := le ((f.drop o).take 8)

/-- The index file layout: a 48 byte header, a 16 byte table header, `n` entries of 40 bytes and
a 40 byte footer.  The feature flags may have bits 60, 62 and 63 only. -/
structure WellFormed (f : List UInt8) (min avg max n : Nat) : Prop where
  size : f.length = 104 + 40 * n
  headerLen : 48 ≤ field f 0
  headerMagic : field f 8 = 0x96824d9c7b129ff9
  flags : ∃ a b c, a ≤ 1 ∧ b ≤ 1 ∧ c ≤ 1 ∧ field f 16 = a * 2 ^ 63 + b * 2 ^ 62 + c * 2 ^ 60
  sizes : field f 24 = min ∧ field f 32 = avg ∧ field f 40 = max
  mono : min < avg ∧ avg < max ∧ max < 2 ^ 32
  tableMagic : field f 56 = 0xe75b9e112f17417d
  foot0 : field f (64 + 40 * n) = 0
  foot1 : field f (72 + 40 * n) = 0
  footOff : field f (80 + 40 * n) = 48
  footLen : field f (88 + 40 * n) = 56 + 40 * n
  footMagic : field f (96 + 40 * n) = 0x4b4f050e5549ecd1

/-- Entry `i` of the table: end offset and chunk ID. -/
def tableEntry (f : List UInt8) (i : Nat) : Nat × List UInt8 :=
  (field f (64 + 40 * i), (f.drop (72 + 40 * i)).take 32)

/-- All `n` table entries, in file order. -/
def tableEntries (f : List UInt8) (n : Nat) : List (Nat × List UInt8) :=
  (List.range n).map (tableEntry f)

/-- The regions the entries stand for: (offset, length, ID), each starting where the previous one
ended. -/
def consecutive : Nat → List (Nat × List UInt8) → List (Nat × Nat × List UInt8)
  | _, [] => []
  | last, (e, id) :: r => (last, e - last, id) :: consecutive e r

/-- End offsets never decrease and every region is shorter than 4 GiB. -/
def Ascending : Nat → List (Nat × List UInt8) → Prop
  | _, [] => True
  | last, (e, _) :: r => last ≤ e ∧ e - last < 2 ^ 32 ∧ Ascending e r

/-- End offsets of consecutive chunks. -/
def ends : Nat → List (Nat × List UInt8) → List (Nat × List UInt8)
  | _, [] => []
  | o, (len, id) :: r => (o + len, id) :: ends (o + len) r

/-- Encode an index for chunks given as (length, ID). -/
def encode (min avg max : Nat) (chunks : List (Nat × List UInt8)) : List UInt8 :=
  toLe 8 48 ++ toLe 8 0x96824d9c7b129ff9 ++ toLe 8 0xd000000000000000 ++
  toLe 8 min ++ toLe 8 avg ++ toLe 8 max ++
  toLe 8 (2 ^ 64 - 1) ++ toLe 8 0xe75b9e112f17417d ++
  ((ends 0 chunks).map (fun e => toLe 8 e.1 ++ e.2)).flatten ++
  toLe 8 0 ++ toLe 8 0 ++ toLe 8 48 ++ toLe 8 (56 + 40 * chunks.length) ++
  toLe 8 0x4b4f050e5549ecd1

end Csn.Spec
