import Verif.Reloc.Int
/-! The wide integers compute with mathematical integers; the byte writers and readers are little endian. -/
namespace Nature.Reloc

/-- The integer a sign-magnitude value stands for. -/
def RInt.val (v : RInt) : Int :=
  let m : Int := v.mag + if v.high then 2 ^ 64 else 0
  if v.neg then -m else m

theorem normalize_val (v : RInt) : v.normalize.val = v.val := by
  unfold RInt.normalize
  split
  · rename_i h
    simp at h
    simp [RInt.val, h]
  · rfl

theorem normalize_mag (v : RInt) : v.normalize.mag = v.mag := by unfold RInt.normalize; split <;> rfl
theorem normalize_high (v : RInt) : v.normalize.high = v.high := by unfold RInt.normalize; split <;> rfl

/-- Values that occur: 64-bit magnitude, negative ones without the extra bit. -/
structure RInt.Ok (v : RInt) : Prop where
  mag : v.mag < 2 ^ 64
  neg : v.neg = true → v.high = false

theorem normalize_ok {v : RInt} (h : v.Ok) : v.normalize.Ok := by
  unfold RInt.normalize
  split
  · exact ⟨h.1, fun h => by cases h⟩
  · exact h

theorem integerAdd_val {base : Nat} {a : Int} (hb : base < 2 ^ 64) (ha : Wide a) :
    (integerAdd base a).val = base + a ∧ (integerAdd base a).Ok := by
  obtain ⟨h1, h2⟩ := ha
  unfold integerAdd
  by_cases h : 0 ≤ a
  · rw [if_pos h]
    obtain ⟨n, rfl⟩ : ∃ n : Nat, a = n := ⟨a.toNat, by omega⟩
    simp only [Int.toNat_natCast]
    refine ⟨?_, ⟨Nat.mod_lt _ (by omega), fun h => by cases h⟩⟩
    by_cases hc : base + n < 2 ^ 64
    · simp only [Nat.mod_eq_of_lt hc]
      have : ¬ base + n < base := by omega
      simp [RInt.val, this]
    · have e : (base + n) % 2 ^ 64 = base + n - 2 ^ 64 := by
        rw [Nat.mod_eq_sub_mod (by omega), Nat.mod_eq_of_lt (by omega)]
      simp only [e]
      have : base + n - 2 ^ 64 < base := by omega
      simp [RInt.val, this]
      omega
  · rw [if_neg h]
    have e : (addendMagnitude a : Int) = -a := by unfold addendMagnitude; omega
    have e2 : addendMagnitude a ≤ 2 ^ 63 := by omega
    generalize addendMagnitude a = m at e e2
    by_cases hc : m ≤ base
    · simp only [hc, if_true]
      refine ⟨?_, normalize_ok ⟨by simp; omega, fun h => by cases h⟩⟩
      rw [normalize_val]
      simp [RInt.val]
      omega
    · simp only [hc, if_false]
      refine ⟨?_, normalize_ok ⟨by simp; omega, fun _ => rfl⟩⟩
      rw [normalize_val]
      simp [RInt.val]
      omega

/-- Subtraction is exact as long as the result stays below 2^65 in size. -/
theorem subtract_val {v : RInt} {s : Nat} (hv : v.Ok) (hs : s < 2 ^ 64) :
    (v.subtract s).val = v.val - s ∧ (v.subtract s).mag < 2 ^ 64 := by
  obtain ⟨m, hi, ng⟩ := v
  obtain ⟨h1, h2⟩ := hv
  simp only at h1 h2
  unfold RInt.subtract
  by_cases h0 : s = 0
  · rw [if_pos h0]
    subst h0
    simp [h1]
  · rw [if_neg h0]
    cases ng
    · cases hi
      · simp only [Bool.false_eq_true, if_false]
        by_cases hc : s ≤ m
        · rw [if_pos hc, normalize_val, normalize_mag]
          simp [RInt.val]
          omega
        · rw [if_neg hc, normalize_val, normalize_mag]
          simp [RInt.val]
          omega
      · simp only [Bool.false_eq_true, if_false, if_true]
        by_cases hc : s ≤ m
        · rw [if_pos hc, normalize_val, normalize_mag]
          simp [RInt.val]
          omega
        · rw [if_neg hc, normalize_val, normalize_mag, Nat.mod_eq_of_lt (by omega)]
          simp [RInt.val]
          omega
    · have := h2 rfl
      subst this
      simp only [if_true]
      by_cases hc : m + s < 2 ^ 64
      · rw [Nat.mod_eq_of_lt hc]
        have : ¬ m + s < m := by omega
        simp [RInt.val, this]
        omega
      · have e : (m + s) % 2 ^ 64 = m + s - 2 ^ 64 := by
          rw [Nat.mod_eq_sub_mod (by omega), Nat.mod_eq_of_lt (by omega)]
        rw [e]
        have : m + s - 2 ^ 64 < m := by omega
        simp [RInt.val, this]
        omega

theorem toSigned_iff {v : RInt} {bits : Nat} (hv : v.mag < 2 ^ 64) (hb : 0 < bits) (hb2 : bits ≤ 64) (x : Int) :
    v.toSigned bits = some x ↔ x = v.val ∧ -2 ^ (bits - 1) ≤ x ∧ x < 2 ^ (bits - 1) := by
  obtain ⟨m, hi, ng⟩ := v
  simp only at hv
  have hL : 2 ^ (bits - 1) ≤ 2 ^ 63 := Nat.pow_le_pow_right (by omega) (by omega)
  have hL1 : 0 < 2 ^ (bits - 1) := Nat.pow_pos (by omega)
  have hc : ((2 : Int) ^ (bits - 1)) = ((2 ^ (bits - 1) : Nat) : Int) := by simp
  unfold RInt.toSigned
  rw [hc]
  generalize 2 ^ (bits - 1) = L at *
  have h1 : ¬ bits = 0 := by omega
  have h2 : ¬ 64 < bits := by omega
  cases hi <;> cases ng <;> simp [RInt.val, h1, h2]
  all_goals omega

theorem toUnsigned_iff {v : RInt} {bits : Nat} (hv : v.mag < 2 ^ 64) (hn : v.normalize = v) (hb : 0 < bits) (hb2 : bits ≤ 64) (x : Nat) :
    v.toUnsigned bits = some x ↔ (x : Int) = v.val ∧ x < 2 ^ bits := by
  obtain ⟨m, hi, ng⟩ := v
  simp only at hv
  have hL : 2 ^ bits ≤ 2 ^ 64 := Nat.pow_le_pow_right (by omega) (by omega)
  have hL1 : 0 < 2 ^ bits := Nat.pow_pos (by omega)
  unfold RInt.toUnsigned
  have h1 : ¬ bits = 0 := by omega
  have h2 : ¬ 64 < bits := by omega
  cases hi <;> cases ng <;> simp [RInt.val, h1, h2]
  · by_cases h64 : bits < 64
    · simp only [h64, true_and]
      by_cases h : 2 ^ bits - 1 < m
      · simp [h]; omega
      · simp [h]; omega
    · have : bits = 64 := by omega
      subst this
      simp; omega
  · intro h
    have : m = 0 := by omega
    subst this
    simp [RInt.normalize] at hn
  · omega
  · omega

theorem integerAdd_normal (base : Nat) (a : Int) : (integerAdd base a).normalize = integerAdd base a := by
  have h2 : ∀ v : RInt, v.normalize.normalize = v.normalize := by
    intro v
    unfold RInt.normalize
    split
    · simp
    · rename_i h; simp [h]
  unfold integerAdd
  split
  · simp only [RInt.normalize]
    split <;> rfl
  · simp only
    split <;> exact h2 _

/-- S + A − P in a signed field: accepted exactly if it fits, and then exact. -/
theorem expressionSigned_iff {base s bits : Nat} {a : Int} (hb : base < 2 ^ 64) (ha : Wide a) (hs : s < 2 ^ 64)
    (h0 : 0 < bits) (h64 : bits ≤ 64) (x : Int) :
    expressionSigned base a s bits = some x ↔ x = base + a - s ∧ -2 ^ (bits - 1) ≤ x ∧ x < 2 ^ (bits - 1) := by
  obtain ⟨e, ok⟩ := integerAdd_val hb ha
  obtain ⟨e2, ok2⟩ := subtract_val ok hs
  unfold expressionSigned integerExpression
  rw [toSigned_iff ok2 h0 h64, e2, e]

theorem signedFits_iff (v : Int) {bits : Nat} (h0 : 0 < bits) (h64 : bits < 64) :
    signedFits v bits = true ↔ -2 ^ (bits - 1) ≤ v ∧ v < 2 ^ (bits - 1) := by
  unfold signedFits
  have h1 : ¬ bits = 0 := by omega
  have h2 : ¬ 64 < bits := by omega
  have h3 : ¬ bits = 64 := by omega
  simp [h1, h2, h3]
  omega

/-! ### Bytes -/

theorem readU32_eq (l : Bytes) : readU32 l = insn l := by
  have key : ∀ a b c d : BitVec 8, (a.setWidth 32 ||| b.setWidth 32 <<< 8 ||| c.setWidth 32 <<< 16 ||| d.setWidth 32 <<< 24) =
      BitVec.ofNat 32 (a.toNat + 256 * (b.toNat + 256 * (c.toNat + 256 * d.toNat))) := by
    intro a b c d
    have ha := a.isLt
    have hb := b.isLt
    have hc := c.isLt
    have hd := d.isLt
    apply BitVec.eq_of_toNat_eq
    simp only [BitVec.toNat_or, BitVec.toNat_shiftLeft, BitVec.toNat_setWidth, BitVec.toNat_ofNat]
    rw [Nat.mod_eq_of_lt (a := a.toNat) (by omega), Nat.mod_eq_of_lt (a := b.toNat) (by omega),
      Nat.mod_eq_of_lt (a := c.toNat) (by omega), Nat.mod_eq_of_lt (a := d.toNat) (by omega)]
    simp only [Nat.shiftLeft_eq]
    rw [Nat.mod_eq_of_lt (a := b.toNat * 2 ^ 8) (by omega), Nat.mod_eq_of_lt (a := c.toNat * 2 ^ 16) (by omega),
      Nat.mod_eq_of_lt (a := d.toNat * 2 ^ 24) (by omega), Nat.mod_eq_of_lt (by omega)]
    have o : ∀ {x y i : Nat}, x < 2 ^ i → x ||| y * 2 ^ i = x + y * 2 ^ i := by
      intro x y i h
      rw [Nat.or_comm, ← Nat.shiftLeft_eq, ← Nat.shiftLeft_add_eq_or_of_lt h, Nat.add_comm]
    rw [o (x := a.toNat) (by omega), o (x := a.toNat + _) (by omega), o (x := a.toNat + _ + _) (by omega)]
    omega
  unfold insn readU32
  rw [key]
  match l with
  | [] => simp [leNat]
  | [a] => simp [leNat]
  | [a, b] => simp [leNat]
  | [a, b, c] => simp [leNat]
  | a :: b :: c :: d :: l => simp [leNat]

theorem readU16_eq (l : Bytes) : readU16 l = cinsn l := by
  have key : ∀ a b : BitVec 8, (a.setWidth 16 ||| b.setWidth 16 <<< 8) = BitVec.ofNat 16 (a.toNat + 256 * b.toNat) := by
    intro a b
    have ha := a.isLt
    have hb := b.isLt
    apply BitVec.eq_of_toNat_eq
    simp only [BitVec.toNat_or, BitVec.toNat_shiftLeft, BitVec.toNat_setWidth, BitVec.toNat_ofNat]
    rw [Nat.mod_eq_of_lt (a := a.toNat) (by omega), Nat.mod_eq_of_lt (a := b.toNat) (by omega)]
    simp only [Nat.shiftLeft_eq]
    rw [Nat.mod_eq_of_lt (a := b.toNat * 2 ^ 8) (by omega), Nat.mod_eq_of_lt (by omega)]
    have o : ∀ {x y i : Nat}, x < 2 ^ i → x ||| y * 2 ^ i = x + y * 2 ^ i := by
      intro x y i h
      rw [Nat.or_comm, ← Nat.shiftLeft_eq, ← Nat.shiftLeft_add_eq_or_of_lt h, Nat.add_comm]
    rw [o (by omega)]
    omega
  unfold cinsn readU16
  rw [key]
  match l with
  | [] => simp [leNat]
  | [a] => simp [leNat]
  | a :: b :: l => simp [leNat]

theorem leNat_lt (n : Nat) (l : Bytes) : leNat n l < 2 ^ (8 * n) := by
  induction n generalizing l with
  | zero => simp [leNat]
  | succ n ih =>
    cases l with
    | nil => simp [leNat]; exact Nat.pow_pos (by omega)
    | cons b l =>
      have := ih l
      have hb := b.isLt
      have e : 2 ^ (8 * (n + 1)) = 256 * 2 ^ (8 * n) := by rw [show 8 * (n + 1) = 8 + 8 * n by omega, Nat.pow_add]
      simp only [leNat]
      omega

theorem leNat_split (a b : Nat) (l : Bytes) : leNat (a + b) l = leNat a l + 2 ^ (8 * a) * leNat b (l.drop a) := by
  induction a generalizing l with
  | zero => simp [leNat]
  | succ a ih =>
    rw [show a + 1 + b = a + b + 1 by omega]
    cases l with
    | nil =>
      simp only [leNat, List.drop_nil]
      cases b <;> simp [leNat]
    | cons c l =>
      simp only [leNat, List.drop_succ_cons, ih]
      rw [show 8 * (a + 1) = 8 * a + 8 by omega, Nat.pow_add, Nat.mul_add]
      rw [show 256 * (2 ^ (8 * a) * leNat b (l.drop a)) = 2 ^ (8 * a) * 2 ^ 8 * leNat b (l.drop a) by
        rw [show (2 : Nat) ^ 8 = 256 from rfl, Nat.mul_left_comm, Nat.mul_assoc]]
      omega

theorem readU64_toNat (l : Bytes) : (readU64 l).toNat = leNat 8 l := by
  have h1 := leNat_lt 4 l
  have h2 := leNat_lt 4 (l.drop 4)
  unfold readU64
  rw [readU32_eq, readU32_eq, leNat_split 4 4 l]
  unfold insn
  simp only [BitVec.toNat_or, BitVec.toNat_shiftLeft, BitVec.toNat_setWidth, BitVec.toNat_ofNat]
  rw [Nat.mod_eq_of_lt (a := leNat 4 l) (by omega), Nat.mod_eq_of_lt (a := leNat 4 (l.drop 4)) (by omega),
    Nat.mod_eq_of_lt (a := leNat 4 l) (by omega), Nat.mod_eq_of_lt (a := leNat 4 (l.drop 4)) (by omega), Nat.shiftLeft_eq,
    Nat.mod_eq_of_lt (by omega), Nat.or_comm, ← Nat.shiftLeft_eq, ← Nat.shiftLeft_add_eq_or_of_lt (by omega), Nat.shiftLeft_eq]
  omega

theorem leNat_writeU32 (l : Bytes) (v : BitVec 32) : leNat 4 (writeU32 l v) = v.toNat := by
  have := v.isLt
  simp only [leNat, writeU32, BitVec.toNat_setWidth, BitVec.toNat_ushiftRight, Nat.shiftRight_eq_div_pow]
  omega

theorem leNat_writeU16 (l : Bytes) (v : BitVec 16) : leNat 2 (writeU16 l v) = v.toNat := by
  have := v.isLt
  simp only [leNat, writeU16, BitVec.toNat_setWidth, BitVec.toNat_ushiftRight, Nat.shiftRight_eq_div_pow]
  omega

theorem leNat_writeU8 (l : Bytes) (v : BitVec 8) : leNat 1 (writeU8 l v) = v.toNat := by
  simp only [leNat, writeU8]
  omega

theorem drop_writeU32 (l : Bytes) (v : BitVec 32) : (writeU32 l v).drop 4 = l.drop 4 := by simp [writeU32]
theorem drop_writeU16 (l : Bytes) (v : BitVec 16) : (writeU16 l v).drop 2 = l.drop 2 := by simp [writeU16]
theorem drop_writeU8 (l : Bytes) (v : BitVec 8) : (writeU8 l v).drop 1 = l.drop 1 := by simp [writeU8]

theorem length_writeU32 {l : Bytes} (h : 4 ≤ l.length) (v : BitVec 32) : (writeU32 l v).length = l.length := by
  simp [writeU32]; omega
theorem length_writeU16 {l : Bytes} (h : 2 ≤ l.length) (v : BitVec 16) : (writeU16 l v).length = l.length := by
  simp [writeU16]; omega
theorem length_writeU8 {l : Bytes} (h : 1 ≤ l.length) (v : BitVec 8) : (writeU8 l v).length = l.length := by
  simp [writeU8]; omega

theorem insn_writeU32 (l : Bytes) (v : BitVec 32) : insn (writeU32 l v) = v := by
  unfold insn; rw [leNat_writeU32]; simp
theorem cinsn_writeU16 (l : Bytes) (v : BitVec 16) : cinsn (writeU16 l v) = v := by
  unfold cinsn; rw [leNat_writeU16]; simp

theorem leNat_writeU64 (l : Bytes) (v : BitVec 64) : leNat 8 (writeU64 l v) = v.toNat := by
  have := v.isLt
  have e : (writeU64 l v) = (writeU32 l (v.setWidth 32)).take 4 ++ writeU32 (l.drop 4) ((v >>> 32).setWidth 32) := by
    unfold writeU64 atOff
    rw [drop_writeU32]
  rw [e, leNat_split 4 4, List.drop_append_of_le_length (by simp [writeU32])]
  rw [show ((writeU32 l (v.setWidth 32)).take 4).drop 4 = [] by simp [writeU32], List.nil_append, leNat_writeU32]
  have e2 : leNat 4 ((writeU32 l (v.setWidth 32)).take 4 ++ writeU32 (l.drop 4) ((v >>> 32).setWidth 32)) = (v.setWidth 32).toNat := by
    rw [← leNat_writeU32 l]
    simp [writeU32, leNat]
  rw [e2]
  simp only [BitVec.toNat_setWidth, BitVec.toNat_ushiftRight, Nat.shiftRight_eq_div_pow]
  omega

theorem drop_writeU64 (l : Bytes) (v : BitVec 64) : (writeU64 l v).drop 8 = l.drop 8 := by
  unfold writeU64 atOff
  rw [drop_writeU32]
  simp [writeU32]

theorem length_writeU64 {l : Bytes} (h : 8 ≤ l.length) (v : BitVec 64) : (writeU64 l v).length = l.length := by
  unfold writeU64 atOff
  rw [drop_writeU32]
  simp [writeU32]
  omega

theorem toNat_ofInt_emod (n : Nat) (x : Int) : ((BitVec.ofInt n x).toNat : Int) = x % 2 ^ n := by
  rw [BitVec.toNat_ofInt]
  have : (0 : Int) < 2 ^ n := Int.pow_pos (by omega)
  have h := Int.emod_nonneg x (Int.ne_of_gt this)
  rw [show (((2 ^ n : Nat) : Int)) = 2 ^ n by simp]
  omega

/-- Two's complement of a value that fits shows the value. -/
theorem signed_ofInt {n : Nat} (hn : 0 < n) {x : Int} (h1 : -2 ^ (8 * n - 1) ≤ x) (h2 : x < 2 ^ (8 * n - 1)) :
    signedNat n (BitVec.ofInt (8 * n) x).toNat = x := by
  have e := toNat_ofInt_emod (8 * n) x
  have p : (2 : Int) ^ (8 * n) = 2 * 2 ^ (8 * n - 1) := by
    rw [show 8 * n = (8 * n - 1) + 1 by omega, Int.pow_succ]; simp; omega
  have p2 : (2 : Nat) ^ (8 * n) = 2 * 2 ^ (8 * n - 1) := by
    rw [show 8 * n = (8 * n - 1) + 1 by omega, Nat.pow_succ]; simp; omega
  unfold signedNat
  rw [p] at e ⊢
  rw [p2]
  have c : ((2 ^ (8 * n - 1) : Nat) : Int) = (2 : Int) ^ (8 * n - 1) := by simp
  generalize (2 : Int) ^ (8 * n - 1) = M at *
  generalize (2 : Nat) ^ (8 * n - 1) = N at *
  subst c
  generalize (BitVec.ofInt (8 * n) x).toNat = y at *
  by_cases h0 : 0 ≤ x
  · rw [Int.emod_eq_of_lt h0 (by omega)] at e
    rw [if_pos (by omega)]
    omega
  · have : x % (2 * (N : Int)) = x + 2 * N := by
      rw [← Int.add_emod_right, Int.emod_eq_of_lt (by omega) (by omega)]
    rw [this] at e
    rw [if_neg (by omega)]
    omega

theorem addModulo_toNat (base : Nat) (a : Int) : ((addModulo base a).toNat : Int) = (base + a) % 2 ^ 64 := by
  unfold addModulo
  rw [BitVec.toNat_add, BitVec.toNat_ofNat]
  have := toNat_ofInt_emod 64 a
  omega

theorem addModulo_setWidth (base : Nat) (a : Int) {n : Nat} (h : n ≤ 64) :
    (((addModulo base a).setWidth n).toNat : Int) = (base + a) % 2 ^ n := by
  rw [BitVec.toNat_setWidth]
  have e := addModulo_toNat base a
  rw [Int.natCast_emod, e]
  have : ((2 ^ n : Nat) : Int) = 2 ^ n := by simp
  rw [this]
  apply Int.emod_emod_of_dvd
  exact ⟨2 ^ (64 - n), by rw [← Int.pow_add]; congr 1; omega⟩

end Nature.Reloc
