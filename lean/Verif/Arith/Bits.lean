import Verif.Arith.Lir
/-
Values of bit vectors under the operations: `bval` reads a vector as a signed or an unsigned number.
-/
namespace Nature.Arith

def bval (s : Bool) {n : Nat} (x : BitVec n) : Int := if s then x.toInt else (x.toNat : Int)

/-- `wrap` for a number of bits. -/
def wrapN (s : Bool) (n : Nat) (v : Int) : Int :=
  if s then (v + 2 ^ (n - 1)) % 2 ^ n - 2 ^ (n - 1) else v % 2 ^ n

theorem wrap_eq (k : Kind) (v : Int) : wrap k v = wrapN k.signed k.bits v := rfl

theorem val_eq (k : Kind) (x : BitVec 64) : val k x = bval k.signed (x.setWidth k.bits) := rfl

theorem ival_eq (s : Bool) (n : Nat) (x : BitVec 64) : ival s n x = bval s (x.setWidth n) := rfl

theorem bits_pos (w : Width) : 0 < w.bits := by cases w <;> decide
theorem bits_le (w : Width) : w.bits ≤ 64 := by cases w <;> decide

theorem two_pow_split {n : Nat} (h : 0 < n) : (2 : Int) ^ n = 2 * 2 ^ (n - 1) := by
  cases n with
  | zero => omega
  | succ n => simp only [Nat.add_sub_cancel]; rw [Int.pow_succ]; omega

theorem pow_le_pow {n m : Nat} (h : n ≤ m) : (2 : Int) ^ n ≤ 2 ^ m := by
  have := Nat.pow_le_pow_right (n := 2) (by decide) h
  have e : ∀ j : Nat, (((2 : Nat) ^ j : Nat) : Int) = 2 ^ j := by intro j; simp
  rw [← e, ← e]
  omega

theorem pow_dvd_pow {n m : Nat} (h : n ≤ m) : (2 : Int) ^ n ∣ 2 ^ m :=
  ⟨2 ^ (m - n), by rw [← Int.pow_add]; congr 1; omega⟩

theorem wrapN_bmod {n : Nat} (h : 0 < n) (v : Int) : wrapN true n v = v.bmod (2 ^ n) := by
  have h2 := two_pow_split h
  have hp : (0 : Int) < 2 ^ (n - 1) := Int.pow_pos (by decide)
  have hc : (((2 : Nat) ^ n : Nat) : Int) = 2 ^ n := by simp
  simp only [wrapN, if_true, Int.bmod, hc]
  have hlt := Int.emod_lt_of_pos v (show (0 : Int) < 2 ^ n by omega)
  have hge := Int.emod_nonneg v (show (2 : Int) ^ n ≠ 0 by omega)
  have key : (v + 2 ^ (n - 1)) % 2 ^ n = (v % 2 ^ n + 2 ^ (n - 1)) % 2 ^ n := by
    rw [Int.emod_add_emod]
  rw [key]
  generalize v % 2 ^ n = r at *
  generalize (2 : Int) ^ (n - 1) = p at *
  rw [h2] at hlt ⊢
  split
  · rw [Int.emod_eq_of_lt (by omega) (by omega)]; omega
  · rw [show r + p = (r - p) + 2 * p by omega, Int.add_emod_right, Int.emod_eq_of_lt (by omega) (by omega)]
    omega

theorem bval_ofInt (s : Bool) {n : Nat} (h : 0 < n) (v : Int) : bval s (BitVec.ofInt n v) = wrapN s n v := by
  cases s with
  | true => rw [wrapN_bmod h]; simp [bval, BitVec.toInt_ofInt]
  | false =>
    simp only [bval, wrapN, BitVec.toNat_ofInt]
    have : (0 : Int) ≤ v % 2 ^ n := Int.emod_nonneg _ (Int.pow_ne_zero (by decide))
    simp [Int.toNat_of_nonneg this]

theorem ofInt_bval (s : Bool) {n : Nat} (x : BitVec n) : BitVec.ofInt n (bval s x) = x := by
  cases s with
  | true => simp [bval]
  | false => simp [bval]

theorem wrapN_bval (s : Bool) {n : Nat} (h : 0 < n) (x : BitVec n) : wrapN s n (bval s x) = bval s x := by
  rw [← bval_ofInt s h, ofInt_bval]

/-- A vector is determined by its value. -/
theorem bval_inj {s : Bool} {n : Nat} {x y : BitVec n} (h : bval s x = bval s y) : x = y := by
  rw [← ofInt_bval s x, h, ofInt_bval]

theorem bval_add (s : Bool) {n : Nat} (h : 0 < n) (x y : BitVec n) : bval s (x + y) = wrapN s n (bval s x + bval s y) := by
  rw [← bval_ofInt s h, BitVec.ofInt_add, ofInt_bval, ofInt_bval]

theorem bval_neg (s : Bool) {n : Nat} (h : 0 < n) (x : BitVec n) : bval s (-x) = wrapN s n (-bval s x) := by
  rw [← bval_ofInt s h, BitVec.ofInt_neg, ofInt_bval]

theorem bval_sub (s : Bool) {n : Nat} (h : 0 < n) (x y : BitVec n) : bval s (x - y) = wrapN s n (bval s x - bval s y) := by
  rw [← bval_ofInt s h, Int.sub_eq_add_neg, BitVec.ofInt_add, BitVec.ofInt_neg, ofInt_bval, ofInt_bval, BitVec.sub_eq_add_neg]

theorem bval_mul (s : Bool) {n : Nat} (h : 0 < n) (x y : BitVec n) : bval s (x * y) = wrapN s n (bval s x * bval s y) := by
  rw [← bval_ofInt s h, BitVec.ofInt_mul, ofInt_bval, ofInt_bval]

theorem bval_not (s : Bool) {n : Nat} (h : 0 < n) (x : BitVec n) : bval s (~~~x) = wrapN s n (-bval s x - 1) := by
  rw [← bval_ofInt s h, Int.sub_eq_add_neg, BitVec.ofInt_add, BitVec.ofInt_neg, ofInt_bval, BitVec.neg_eq_not_add, BitVec.ofInt_neg]
  rw [show BitVec.ofInt n 1 = 1#n from rfl, BitVec.add_assoc, ← BitVec.sub_eq_add_neg, BitVec.sub_self, BitVec.add_zero]

theorem bval_bitwise (k : Kind) (f : BitVec k.bits → BitVec k.bits → BitVec k.bits) (x y : BitVec k.bits) :
    bitwise k f (bval k.signed x) (bval k.signed y) = bval k.signed (f x y) := by
  rw [bitwise, ofInt_bval, ofInt_bval, wrap_eq, ← bval_ofInt _ (bits_pos _)]
  simp

theorem bval_shl (s : Bool) {n : Nat} (h : 0 < n) (x : BitVec n) (m : Nat) : bval s (x <<< m) = wrapN s n (bval s x * 2 ^ m) := by
  rw [← bval_ofInt s h, BitVec.ofInt_mul, ofInt_bval, BitVec.shiftLeft_eq_mul_twoPow]
  congr 2
  apply BitVec.eq_of_toNat_eq
  have e : (2 : Int) ^ m = ((2 ^ m : Nat) : Int) := by simp
  rw [BitVec.toNat_twoPow, e, BitVec.ofInt_natCast, BitVec.toNat_ofNat]

theorem bval_shr_u {n : Nat} (x : BitVec n) (m : Nat) : bval false (x >>> m) = bval false x / 2 ^ m := by
  simp [bval, BitVec.toNat_ushiftRight, Nat.shiftRight_eq_div_pow]

theorem bval_shr_s {n : Nat} (x : BitVec n) (m : Nat) : bval true (x.sshiftRight m) = bval true x / 2 ^ m := by
  simp [bval, BitVec.toInt_sshiftRight, Int.shiftRight_eq_div_pow]

/-- The range of values of `n` bits. -/
def RangeN : Bool → Nat → Int → Prop
  | true, n, v => -2 ^ (n - 1) ≤ v ∧ v < 2 ^ (n - 1)
  | false, n, v => 0 ≤ v ∧ v < 2 ^ n

theorem bval_range (s : Bool) {n : Nat} (h : 0 < n) (x : BitVec n) : RangeN s n (bval s x) := by
  cases s with
  | true =>
    have h1 := BitVec.two_mul_toInt_lt (x := x)
    have h2 := BitVec.le_two_mul_toInt (x := x)
    have h3 := two_pow_split h
    simp only [RangeN, bval, if_true]
    omega
  | false =>
    have h1 := x.isLt
    have hc : (((2 : Nat) ^ n : Nat) : Int) = 2 ^ n := by simp
    simp only [RangeN, bval]
    simp only [Bool.false_eq_true, if_false]
    omega

theorem wrapN_range {s : Bool} {n : Nat} (h : 0 < n) {v : Int} (hv : RangeN s n v) : wrapN s n v = v := by
  have hp : (0 : Int) < 2 ^ (n - 1) := Int.pow_pos (by decide)
  have h2 := two_pow_split h
  cases s with
  | true =>
    simp only [RangeN] at hv
    simp only [wrapN, if_true]
    rw [Int.emod_eq_of_lt (by omega) (by omega)]
    omega
  | false =>
    simp only [RangeN] at hv
    simp only [wrapN, Bool.false_eq_true, if_false]
    exact Int.emod_eq_of_lt hv.1 hv.2

theorem rangeN_mono {s : Bool} {n m : Nat} (hn : 0 < n) (hm : n ≤ m) {v : Int} (h : RangeN s n v) : RangeN s m v := by
  cases s with
  | true =>
    have : (2 : Int) ^ (n - 1) ≤ 2 ^ (m - 1) := pow_le_pow (by omega)
    simp only [RangeN] at *
    omega
  | false =>
    have : (2 : Int) ^ n ≤ 2 ^ m := pow_le_pow hm
    simp only [RangeN] at *
    omega

/-- Wrapping to more bits first changes nothing. -/
theorem ofInt_setWidth {n m : Nat} (h : n ≤ m) (v : Int) : (BitVec.ofInt m v).setWidth n = BitVec.ofInt n v := by
  apply BitVec.eq_of_toNat_eq
  rw [BitVec.toNat_setWidth, BitVec.toNat_ofInt, BitVec.toNat_ofInt]
  have hp : ∀ j : Nat, (0 : Int) < 2 ^ j := fun j => Int.pow_pos (by decide)
  have e : ∀ j : Nat, (((2 : Nat) ^ j : Nat) : Int) = 2 ^ j := by intro j; simp
  have hd : ((2 : Int) ^ n) ∣ 2 ^ m := pow_dvd_pow h
  apply Int.ofNat.inj
  simp only [Int.ofNat_eq_natCast, Int.natCast_emod, e]
  rw [Int.toNat_of_nonneg (Int.emod_nonneg _ (Int.ne_of_gt (hp m))), Int.toNat_of_nonneg (Int.emod_nonneg _ (Int.ne_of_gt (hp n))),
    Int.emod_emod_of_dvd _ hd]

/-- A value in the range of `n` bits is represented at `n` bits when it is at more. -/
theorem bval_narrow {s : Bool} {n m : Nat} (hn : 0 < n) (h : n ≤ m) {x : BitVec m} {v : Int} (hx : bval s x = v) (hv : RangeN s n v) :
    bval s (x.setWidth n) = v := by
  rw [← ofInt_bval s x, hx, ofInt_setWidth h, bval_ofInt s hn, wrapN_range hn hv]

theorem setWidth_setWidth {a b c : Nat} (h : b ≤ c) (x : BitVec a) : (x.setWidth c).setWidth b = x.setWidth b := by
  rw [BitVec.setWidth_setWidth_of_le _ h]

theorem inRange_rangeN {k : Kind} {v : Int} (h : InRange k v) : RangeN k.signed k.bits v := by
  cases k with
  | bool => rcases h with h | h <;> subst h <;> exact ⟨by decide, by decide⟩
  | int w s => cases s <;> exact h

theorem rangeN_inRange {w : Width} {s : Bool} {v : Int} (h : RangeN s w.bits v) : InRange (.int w s) v := by
  cases s <;> exact h

/-- A literal is represented by its 64 bits, at every width that has its value. -/
theorem bval_lit {s : Bool} {n : Nat} (hn : 0 < n) (hn' : n ≤ 64) {v : Int} (h : RangeN s n v) :
    bval s ((BitVec.ofInt 64 v).setWidth n) = v := by
  rw [ofInt_setWidth hn', bval_ofInt s hn, wrapN_range hn h]

/-! ### Comparisons -/

theorem bval_lt_u {n : Nat} (x y : BitVec n) : x.ult y = decide (bval false x < bval false y) := by
  simp [BitVec.ult, bval]

theorem bval_lt_s {n : Nat} (x y : BitVec n) : x.slt y = decide (bval true x < bval true y) := by
  simp [BitVec.slt, bval]

theorem bval_eq (s : Bool) {n : Nat} (x y : BitVec n) : (x == y) = decide (bval s x = bval s y) := by
  rw [Bool.eq_iff_iff, beq_iff_eq, decide_eq_true_iff]
  exact ⟨fun h => by rw [h], bval_inj⟩

theorem sub_beq {n : Nat} (x y : BitVec n) : (x - y == 0) = (x == y) := by
  rw [Bool.eq_iff_iff, beq_iff_eq, beq_iff_eq]
  constructor
  · intro h
    have := congrArg (· + y) h
    simpa [BitVec.sub_add_cancel] using this
  · intro h; rw [h]; simp

/-- The sign of the difference, corrected by the overflow, is the signed comparison. -/
theorem sub_flags {n : Nat} (h : 0 < n) (x y : BitVec n) : ((x - y).msb != BitVec.ssubOverflow x y) = x.slt y := by
  have h2 := two_pow_split h
  have hp : (0 : Int) < 2 ^ (n - 1) := Int.pow_pos (by decide)
  have hx := bval_range true h x
  have hy := bval_range true h y
  have hd := bval_sub true h x y
  simp only [RangeN, bval, if_true] at hx hy
  rw [show (x - y).msb = decide ((x - y).toInt < 0) from BitVec.msb_eq_toInt]
  simp only [bval, if_true, wrapN] at hd
  rw [hd, BitVec.slt, BitVec.ssubOverflow]
  generalize x.toInt = a at *
  generalize y.toInt = b at *
  rw [h2]
  generalize (2 : Int) ^ (n - 1) = p at *
  rcases Int.lt_or_le (a - b) (-p) with h1 | h1
  · rw [show a - b + p = (a - b + p + 2 * p) - 2 * p by omega, Int.sub_emod_right, Int.emod_eq_of_lt (by omega) (by omega)]
    have e1 : decide (a - b ≥ p) = false := decide_eq_false (by omega)
    have e2 : decide (a - b < -p) = true := decide_eq_true h1
    have e3 : decide (a - b + p + 2 * p - p < 0) = false := decide_eq_false (by omega)
    have e4 : decide (a < b) = true := decide_eq_true (by omega)
    simp [e1, e2, e3, e4]
  · rcases Int.lt_or_le (a - b) p with h3 | h3
    · rw [Int.emod_eq_of_lt (by omega) (by omega)]
      have e1 : decide (a - b ≥ p) = false := decide_eq_false (by omega)
      have e2 : decide (a - b < -p) = false := decide_eq_false (by omega)
      have e3 : decide (a - b + p - p < 0) = decide (a < b) := by congr 1; apply propext; omega
      rw [e3, e1, e2]; simp
    · rw [show a - b + p = (a - b + p - 2 * p) + 2 * p by omega, Int.add_emod_right, Int.emod_eq_of_lt (by omega) (by omega)]
      have e1 : decide (a - b ≥ p) = true := decide_eq_true h3
      have e2 : decide (a - b < -p) = false := decide_eq_false (by omega)
      have e3 : decide (a - b + p - 2 * p - p < 0) = true := decide_eq_true (by omega)
      have e4 : decide (a < b) = false := decide_eq_false (by omega)
      simp [e1, e2, e3, e4]

/-! ### Conversions -/

theorem ext_val (s : Bool) {n m : Nat} (hn : 0 < n) (hnm : n < m) (x : BitVec n) (t : Bool) :
    bval t (if s then x.signExtend m else x.setWidth m) = wrapN t m (bval s x) := by
  cases s with
  | true =>
    simp only [if_true]
    rw [← bval_ofInt t (by omega)]
    congr 1
  | false =>
    simp only [Bool.false_eq_true, if_false]
    rw [← bval_ofInt t (by omega)]
    congr 1
    simp [bval]

theorem trunc_val (s t : Bool) {n m : Nat} (hm : 0 < m) (hnm : m ≤ n) (x : BitVec n) : bval t (x.setWidth m) = wrapN t m (bval s x) := by
  rw [← bval_ofInt t hm]
  congr 1
  have := ofInt_setWidth hnm (bval s x)
  rw [ofInt_bval] at this
  exact this

end Nature.Arith
