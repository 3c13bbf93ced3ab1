import Verif.Model.Base
/-
Hex digits, line breaks and key specifications.
-/
namespace Csn.Spec
open Csn

/-- Value of a hex digit of either case: its place in the list of digits. -/
def hexVal (c : UInt8) : Option Nat :=
  match (str "0123456789abcdef").findIdx? (· == c) with
  | some i => some i
  | none => (str "0123456789ABCDEF").findIdx? (· == c)

/-- The digits `s` denote the bytes `k`, two digits per byte, the higher one first. -/
inductive HexOf : Bytes → Bytes → Prop where
  | nil : HexOf [] []
  | cons (c d : UInt8) (hi lo : Nat) (s : Bytes) (b : UInt8) (k : Bytes) : hexVal c = some hi → hexVal d = some lo →
      b.toNat = 16 * hi + lo → HexOf s k → HexOf (c :: d :: s) (b :: k)

/-- CR or LF -/
def LineBreak (c : UInt8) : Prop := c = 0x0d ∨ c = 0x0a

/-- `s` is `t` without its trailing line breaks. -/
def Stripped (t s : Bytes) : Prop :=
  ∃ u, t = s ++ u ∧ (∀ c ∈ u, LineBreak c) ∧ ∀ c, s.getLast? = some c → ¬ LineBreak c

/-- `s` is `t` without line breaks at its end, or, if there are line breaks elsewhere only, without the
last group of line breaks and all that follows. -/
def CutAtBreak (t s : Bytes) : Prop :=
  (s = t ∧ ∀ c ∈ t, ¬ LineBreak c) ∨
  ∃ u v, t = s ++ u ++ v ∧ u ≠ [] ∧ (∀ c ∈ u, LineBreak c) ∧ (∀ c ∈ v, ¬ LineBreak c) ∧ ∀ c, s.getLast? = some c → ¬ LineBreak c

/-- A C string in a file: everything before the first NUL, or the whole file. -/
def CText (d t : Bytes) : Prop := 0 ∉ t ∧ (d = t ∨ ∃ r, d = t ++ 0 :: r)

/-- Where a key specification's digits come from.  `CutAtBreak` also accepts anything behind a line break. -/
inductive KeySource (getenv : Bytes → Option Bytes) (w : World) : Bytes → Bytes → Prop where
  | key (s) : KeySource getenv w (str "key:" ++ s) s
  | env (v s) : getenv v = some s → KeySource getenv w (str "env:" ++ v) s
  | file (path ino t s) : w.dir path = some ino → w.kind ino ≠ .other → CText (w.data ino) t → CutAtBreak t s →
      KeySource getenv w (str "file:" ++ path) s

/-- Key specification `spec` denotes key `k`. -/
def KeyOf (getenv : Bytes → Option Bytes) (w : World) (spec k : Bytes) : Prop :=
  ∃ s, KeySource getenv w spec s ∧ s.length = 64 ∧ HexOf s k

end Csn.Spec
