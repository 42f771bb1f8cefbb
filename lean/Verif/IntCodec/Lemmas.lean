import Verif.IntCodec.Model
namespace Nature.IntCodec
open Nature

theorem ff_bit (w k : Nat) : (BitVec.ofNat w 0xFF).getLsbD k = (decide (k < w) && decide (k < 8)) := by
  rw [BitVec.getLsbD_ofNat]
  congr 1
  exact Nat.testBit_two_pow_sub_one 8 k

theorem put_bit {w : Nat} (x : BitVec w) (o j : Nat) :
    (put x o).getLsbD j = (decide (j < 8) && x.getLsbD (o + j)) := by
  unfold put
  rw [BitVec.getLsbD_setWidth, BitVec.getLsbD_and, BitVec.getLsbD_ushiftRight, ff_bit]
  by_cases h : j < 8
  · by_cases h2 : j < w
    · simp [h, h2]
    · simp [h, h2, BitVec.getLsbD_of_ge x (o + j) (by omega)]
  · simp [h]

theorem sput_eq_put {w : Nat} (x : BitVec w) (o : Nat) (h : o + 8 ≤ w) : sput x o = put x o := by
  apply BitVec.eq_of_getLsbD_eq
  intro j hj
  rw [put_bit]
  unfold sput
  rw [BitVec.getLsbD_setWidth, BitVec.getLsbD_and, BitVec.getLsbD_sshiftRight, ff_bit]
  simp [hj, show o + j < w by omega, show ¬ w ≤ j by omega, show j < w by omega]

theorem get_bit (w : Nat) (b : Byte) (o i : Nat) :
    (get w b o).getLsbD i = (decide (i < w) && decide (o ≤ i) && b.getLsbD (i - o)) := by
  unfold get
  rw [BitVec.getLsbD_shiftLeft, BitVec.getLsbD_setWidth]
  by_cases h : i < w
  · by_cases h2 : o ≤ i
    · simp [h, h2, show ¬ i < o by omega, show i - o < w by omega]
    · simp [h, h2, show i < o by omega]
  · simp [h]

/-- One byte of `x` put back in place. -/
theorem gp {w : Nat} (x : BitVec w) (o i : Nat) (hi : i < w) :
    (get w (put x o) o).getLsbD i = (decide (o ≤ i) && decide (i < o + 8) && x.getLsbD i) := by
  rw [get_bit, put_bit]
  by_cases h : o ≤ i
  · by_cases h2 : i < o + 8
    · simp [h, h2, hi, show i - o < 8 by omega, show o + (i - o) = i by omega]
    · simp [h, h2, show ¬ i - o < 8 by omega]
  · simp [h]

theorem put_toNat {w : Nat} (x : BitVec w) (o : Nat) (h : 8 ≤ w) : (put x o).toNat = x.toNat / 2 ^ o % 256 := by
  unfold put
  rw [BitVec.toNat_setWidth, BitVec.toNat_and, BitVec.toNat_ushiftRight, BitVec.toNat_ofNat, Nat.shiftRight_eq_div_pow]
  have : (2 : Nat) ^ 8 ≤ 2 ^ w := Nat.pow_le_pow_right (by omega) h
  rw [Nat.mod_eq_of_lt (a := 0xFF) (by omega), Nat.and_two_pow_sub_one_eq_mod _ 8, Nat.mod_mod]

/-- Taking byte `o` of a join in which exactly one byte overlaps it. -/
theorem put_or {w : Nat} (x y : BitVec w) (o : Nat) : put (x ||| y) o = put x o ||| put y o := by
  apply BitVec.eq_of_getLsbD_eq
  intro j hj
  rw [BitVec.getLsbD_or, put_bit, put_bit, put_bit, BitVec.getLsbD_or]
  simp [hj]

theorem put_get_same (w : Nat) (b : Byte) (o : Nat) (h : o + 8 ≤ w) : put (get w b o) o = b := by
  apply BitVec.eq_of_getLsbD_eq
  intro j hj
  rw [put_bit, get_bit]
  simp [hj, show o + j < w by omega]

theorem put_get_ne (w : Nat) (b : Byte) (o p : Nat) (h : o + 8 ≤ p ∨ p + 8 ≤ o) : put (get w b o) p = 0#8 := by
  apply BitVec.eq_of_getLsbD_eq
  intro j hj
  rw [put_bit, get_bit]
  rcases h with h | h
  · simp [BitVec.getLsbD_of_ge b (p + j - o) (by omega)]
  · simp [show ¬ o ≤ p + j by omega]

end Nature.IntCodec
