import Verif.Model.Chunker
import Verif.Spec.Chunking
/-
The rolling hash of the model equals the Horner-form buzhash of the specification.
-/
namespace Csn.Proof
open Csn Spec

set_option maxRecDepth 20000 in
theorem table_eq : buzhashTable = Spec.table.map (BitVec.ofNat 32) := by rfl

theorem buz_eq (b : UInt8) : buz b = BitVec.ofNat 32 (Spec.table.getD b.toNat 0) := by
  unfold buz
  rw [table_eq]
  simp only [List.getD_eq_getElem?_getD, List.getElem?_map]
  cases Spec.table[b.toNat]? <;> rfl

theorem rol32_eq (x : BitVec 32) (n : Nat) : rol32 x n = rot x n := by
  unfold rol32 rot
  simp only [BitVec.rotateLeft, BitVec.rotateLeftAux]
  split
  · next h => rw [h]; ext i; simp
  · rfl

theorem rot_xor (x y : BitVec 32) (n : Nat) : rot (x ^^^ y) n = rot x n ^^^ rot y n := by
  unfold rot
  ext i hi
  simp only [BitVec.getElem_eq_testBit_toNat, BitVec.testBit_toNat, BitVec.getLsbD_rotateLeft,
    BitVec.getLsbD_xor]
  by_cases h : i < n % 32 <;> simp [h, hi]

theorem rot_zero_bv (n : Nat) : rot 0 n = 0 := by
  unfold rot
  ext i hi
  simp only [BitVec.getElem_eq_testBit_toNat, BitVec.testBit_toNat, BitVec.getLsbD_rotateLeft]
  simp

theorem rot_zero (x : BitVec 32) : rot x 0 = x := by
  unfold rot
  ext i hi
  simp only [BitVec.getElem_eq_testBit_toNat, BitVec.testBit_toNat, BitVec.getLsbD_rotateLeft]
  simp [hi]

theorem rot_rot_one (x : BitVec 32) (n : Nat) : rot (rot x 1) n = rot x (n + 1) := by
  unfold rot
  ext i hi
  simp only [BitVec.getElem_eq_testBit_toNat, BitVec.testBit_toNat, BitVec.getLsbD_rotateLeft]
  by_cases h31 : n % 32 = 31
  · have e : (n + 1) % 32 = 0 := by omega
    rw [e, h31]
    by_cases h : i < 31
    · simp [h, hi]
      by_cases h2 : 32 - 31 + i < 1
      · omega
      · intro _; omega
    · have : i = 31 := by omega
      subst this
      simp
  · have e : (n + 1) % 32 = n % 32 + 1 := by omega
    rw [e]
    have hn : n % 32 < 31 := by omega
    by_cases h : i < n % 32
    · have h' : i < n % 32 + 1 := by omega
      simp only [h, h', decide_true, cond_true]
      have h2 : ¬ (32 - n % 32 + i < 1 % 32) := by omega
      simp only [h2, decide_false, cond_false]
      have h3 : 32 - n % 32 + i < 32 := by omega
      simp only [h3, decide_true, Bool.true_and]
      congr 1
      omega
    · simp only [h, decide_false, cond_false]
      by_cases h' : i < n % 32 + 1
      · have : i = n % 32 := by omega
        simp only [h', decide_true, cond_true]
        have h2 : i - n % 32 < 1 % 32 := by omega
        simp only [h2, hi, decide_true, cond_true, Bool.true_and]
        congr 1
        omega
      · simp only [h', decide_false, cond_false]
        have h2 : ¬ (i - n % 32 < 1 % 32) := by omega
        have h3 : i - n % 32 < 32 := by omega
        simp only [h2, h3, hi, decide_true, decide_false, cond_false, Bool.true_and]
        congr 1

theorem rot_rot (x : BitVec 32) (a b : Nat) : rot (rot x a) b = rot x (a + b) := by
  induction a generalizing x with
  | zero => simp [rot_zero]
  | succ a ih => rw [← rot_rot_one, ih, rot_rot_one]; congr 1; omega

/-- One Horner step. -/
def hstep (h : BitVec 32) (b : UInt8) : BitVec 32 :=
  rot h 1 ^^^ BitVec.ofNat 32 (Spec.table.getD b.toNat 0)

theorem buzhash_def (w : Bytes) : buzhash w = w.foldl hstep 0 := rfl

theorem hstep_lin (g h : BitVec 32) (b : UInt8) : hstep (g ^^^ h) b = rot g 1 ^^^ hstep h b := by
  unfold hstep
  rw [rot_xor, BitVec.xor_assoc]

theorem foldl_hstep_lin (w : Bytes) (g h : BitVec 32) :
    w.foldl hstep (g ^^^ h) = rot g w.length ^^^ w.foldl hstep h := by
  induction w generalizing g h with
  | nil => simp [rot_zero]
  | cons b r ih =>
    simp only [List.foldl_cons, List.length_cons]
    rw [hstep_lin, ih, rot_rot_one]

theorem buzhash_cons (x : UInt8) (m : Bytes) :
    buzhash (x :: m) = rot (buz x) m.length ^^^ buzhash m := by
  rw [buzhash_def, List.foldl_cons]
  have : hstep 0 x = buz x ^^^ 0 := by
    rw [buz_eq]; unfold hstep; rw [rot_zero_bv, BitVec.xor_comm]
  rw [this, foldl_hstep_lin]
  rfl

theorem buzhash_snoc (m : Bytes) (b : UInt8) :
    buzhash (m ++ [b]) = rot (buzhash m) 1 ^^^ buz b := by
  rw [buzhash_def, List.foldl_append, buz_eq]
  rfl

/-- chunker.c:180-182: rolling step. -/
theorem buzhash_roll (x b : UInt8) (m : Bytes) (hm : m.length = 47) :
    rol32 (buzhash (x :: m)) 1 ^^^ rol32 (buz x) 48 ^^^ buz b = buzhash (m ++ [b]) := by
  rw [rol32_eq, rol32_eq, buzhash_snoc, buzhash_cons, rot_xor, hm, rot_rot]
  have : ∀ a c e : BitVec 32, a ^^^ c ^^^ a ^^^ e = c ^^^ e := by
    intro a c e
    rw [BitVec.xor_comm a c, BitVec.xor_assoc c a a, BitVec.xor_self, BitVec.xor_zero]
  rw [this]

theorem initHash_prefix (w : Bytes) (hw : w.length = 48) (n : Nat) (hn : n ≤ 48) :
    (List.range n).foldl (fun h i => h ^^^ rol32 (buz (w.getD i 0)) (48 - i - 1)) 0
      = rot (buzhash (w.take n)) (48 - n) := by
  induction n with
  | zero => exact (rot_zero_bv 48).symm
  | succ n ih =>
    rw [List.range_succ, List.foldl_append, ih (by omega)]
    simp only [List.foldl_cons, List.foldl_nil]
    have hlt : n < w.length := by omega
    rw [List.take_succ_eq_append_getElem hlt, buzhash_snoc, rot_xor, rot_rot_one, rol32_eq]
    have e1 : 48 - (n + 1) + 1 = 48 - n := by omega
    have e2 : 48 - n - 1 = 48 - (n + 1) := by omega
    rw [e1, e2]
    simp [List.getD_eq_getElem?_getD, hlt]

/-- chunker.c:170-171: the initial hash of a full window. -/
theorem initHash_eq (w : Bytes) (hw : w.length = 48) : initHash w = buzhash w := by
  unfold initHash
  rw [initHash_prefix w hw 48 (Nat.le_refl _)]
  rw [show 48 - 48 = 0 from rfl, rot_zero, List.take_of_length_le (by omega)]

end Csn.Proof
