import Verif.Model.Base
/-
Vocabulary for the benchmarks: Marsaglia's 32 bit xorshift generator (13, 17, 5), in arithmetic on numbers.
-/
namespace Csn.Spec
open Csn

/-- One step of the generator. -/
def marsaglia (x : Nat) : Nat :=
  let x := x ^^^ (x * 2 ^ 13 % 2 ^ 32)
  let x := x ^^^ (x / 2 ^ 17)
  x ^^^ (x * 2 ^ 5 % 2 ^ 32)

/-- The state after `n` steps from `x`. -/
def marsagliaN (x : Nat) : Nat → Nat
  | 0 => x
  | n + 1 => marsaglia (marsagliaN x n)

/-- Byte `j` of the generator's output: the numbers after each step, four bytes each, least significant byte first. -/
def marsagliaByte (x j : Nat) : UInt8 := UInt8.ofNat (marsagliaN x (j / 4 + 1) / 256 ^ (j % 4) % 256)

end Csn.Spec
