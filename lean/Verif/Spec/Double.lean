import Verif.Model.Base
/-
IEEE 754 binary64 numbers (C95).  Nonnegative numbers only, as multiples of 2^-1074; numbers from 2^1024 on are not excluded.
-/
namespace Csn.Spec

/-- The number 1. -/
def unit : Nat := 2 ^ 1074

/-- A number with a significand of at most 53 bits. -/
def IsDouble (u : Nat) : Prop := ∃ m e, m < 2 ^ 53 ∧ u = m * 2 ^ e

def gap (a b : Nat) : Nat := (a - b) + (b - a)

/-- `u` is the double nearest to `n / d`; between two of them it is the one whose significand is even, so which is a multiple of a larger power of two. -/
def NearestEven (n d u : Nat) : Prop :=
  IsDouble u ∧ ∀ v, IsDouble v → gap n (u * d) ≤ gap n (v * d) ∧
    (gap n (u * d) = gap n (v * d) → v ≠ u → ∃ e, 2 ^ (e + 1) ∣ u ∧ ¬ 2 ^ (e + 1) ∣ v)

/-- `avg / (-1.42888852e-7 * avg + 1.33237515)` evaluated in doubles and cut off, where the denominator is positive.  The constants are rounded, too.  Either
every operation is rounded (`fused = false`), or the product goes into the sum as it is. -/
def Evaluates (fused : Bool) (avg q : Nat) : Prop :=
  ∃ c1 c2 s x, NearestEven (142888852 * unit) (10 ^ 15) c1 ∧ NearestEven (133237515 * unit) (10 ^ 8) c2 ∧
    (if fused then c1 * avg < c2 ∧ NearestEven (c2 - c1 * avg) 1 s else ∃ p, NearestEven (c1 * avg) 1 p ∧ p < c2 ∧ NearestEven (c2 - p) 1 s) ∧
    NearestEven (avg * unit * unit) s x ∧ q = x / unit

end Csn.Spec
