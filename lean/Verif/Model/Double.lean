import Verif.Model.Base
/-
The discriminator as the machine computes it.  Numbers are nonnegative IEEE 754 binary64 numbers, as multiples of 2^-1074; signs are handled separately.
-/
namespace Csn.Double

/-- The number 1. -/
def one : Nat := 2 ^ 1074

/-- `n / d` rounded to an integer, ties to even. -/
def rne (n d : Nat) : Nat :=
  let q := n / d
  let r := n % d
  if 2 * r < d ∨ (2 * r = d ∧ q % 2 = 0) then q else q + 1

/-- The distance of the doubles at the (integer part of the) number `x`: 53 bits. -/
def grid (x : Nat) : Nat := 2 ^ (Nat.log2 x - 52)

/-- IEEE 754 rounding of `n / d` in the default mode.  No number here is near the largest double. -/
def roundD (n d : Nat) : Nat := rne n (d * grid (n / d)) * grid (n / d)

/-- chunker.c:110 the constants as the compiler reads them; the sign of the first is left out. -/
def k1 : Nat := roundD (142888852 * one) (10 ^ 15)
def k2 : Nat := roundD (133237515 * one) (10 ^ 8)

/-- chunker.c:110 the division by the sum, whose absolute value is `s`, and the conversion to size_t (64 bits): undefined if the integer part is not
representable, also for an infinite quotient.  `avg` is a uint32_t (chunker.h:14), which is converted without loss. -/
def quotient (avg : Nat) (negative : Bool) (s : Nat) : Option Nat :=
  if s = 0 then none
  else
    let q := roundD (avg * one * one) s / one
    if negative then (if q = 0 then some 0 else none)
    else if q < 2 ^ 64 then some q else none

/-- chunker.c:110 `CA_CHUNKER_DISCRIMINATOR_FROM_AVG`, every operation rounded (x86-64 without FMA). -/
def disc (avg : Nat) : Option Nat :=
  let p := roundD (k1 * avg) 1
  if p ≤ k2 then quotient avg false (roundD (k2 - p) 1) else quotient avg true (roundD (p - k2) 1)

/-- chunker.c:110 with the product and the sum contracted to one operation, as compilers do by default on machines that have it (C11 6.5 p8). -/
def discFused (avg : Nat) : Option Nat :=
  let p := k1 * avg
  if p ≤ k2 then quotient avg false (roundD (k2 - p) 1) else quotient avg true (roundD (p - k2) 1)

end Csn.Double
