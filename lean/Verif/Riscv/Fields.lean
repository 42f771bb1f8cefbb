import Verif.Riscv.Model
/-! The 32-bit formats: which fields the processor finds in them. -/
namespace Nature.Riscv

theorem or_add {a b i : Nat} (ha : 2 ^ i ∣ a) (hb : b < 2 ^ i) : a ||| b = a + b := by
  obtain ⟨c, rfl⟩ := ha
  rw [Nat.mul_comm, ← Nat.shiftLeft_eq, Nat.shiftLeft_add_eq_or_of_lt hb]

/-- A word by its fields. -/
def fields (f7 rs2 a f3 d op : Nat) : Nat := f7 * 2 ^ 25 + rs2 * 2 ^ 20 + a * 2 ^ 15 + f3 * 2 ^ 12 + d * 2 ^ 7 + op

theorem or_fields {f7 rs2 a f3 d op : Nat} (h2 : rs2 < 32) (ha : a < 32) (h3 : f3 < 8) (hd : d < 32) (ho : op < 128) :
    (f7 * 2 ^ 25) ||| (rs2 * 2 ^ 20) ||| (a * 2 ^ 15) ||| (f3 * 2 ^ 12) ||| (d * 2 ^ 7) ||| op = fields f7 rs2 a f3 d op := by
  rw [or_add (a := f7 * 2 ^ 25) (i := 25) (by omega) (by omega), or_add (b := a * 2 ^ 15) (i := 20) (by omega) (by omega),
    or_add (b := f3 * 2 ^ 12) (i := 15) (by omega) (by omega), or_add (b := d * 2 ^ 7) (i := 12) (by omega) (by omega),
    or_add (i := 7) (by omega) (by omega)]
  rfl

theorem rtype_eq {f7 rs2 a f3 d op : Nat} (h2 : rs2 < 32) (ha : a < 32) (h3 : f3 < 8) (hd : d < 32) (ho : op < 128) :
    rtype f7 rs2 a f3 d op = fields f7 rs2 a f3 d op := by
  unfold rtype
  simp only [Nat.shiftLeft_eq]
  exact or_fields h2 ha h3 hd ho

theorem ext_lt (v : Int) (t b : Nat) : ext v t b < 2 ^ (t - b + 1) := by
  unfold ext
  have h0 : (0 : Int) < 2 ^ (t - b + 1) := Int.pow_pos (by omega)
  have h1 := Int.emod_lt_of_pos (v / 2 ^ b) h0
  have h2 := Int.emod_nonneg (v / 2 ^ b) (Int.ne_of_gt h0)
  have h3 : ((v / 2 ^ b % 2 ^ (t - b + 1)).toNat : Int) < ((2 ^ (t - b + 1) : Nat) : Int) := by
    rw [Int.toNat_of_nonneg h2]
    exact_mod_cast h1
  exact_mod_cast h3

theorem ext_val (v : Int) (t b : Nat) : (ext v t b : Int) = v / 2 ^ b % 2 ^ (t - b + 1) := by
  unfold ext
  have h0 : (0 : Int) < 2 ^ (t - b + 1) := Int.pow_pos (by omega)
  exact Int.toNat_of_nonneg (Int.emod_nonneg (v / 2 ^ b) (Int.ne_of_gt h0))

theorem itype_eq {v : Int} {a f3 d op : Nat} (ha : a < 32) (h3 : f3 < 8) (hd : d < 32) (ho : op < 128) :
    itype v a f3 d op = fields (ext v 11 0 / 32) (ext v 11 0 % 32) a f3 d op := by
  unfold itype
  simp only [Nat.shiftLeft_eq]
  rw [← or_fields (Nat.mod_lt _ (by omega)) ha h3 hd ho]
  rw [or_add (a := ext v 11 0 / 32 * 2 ^ 25) (b := ext v 11 0 % 32 * 2 ^ 20) (i := 25) (by omega) (by omega)]
  have e : ext v 11 0 * 2 ^ 20 = ext v 11 0 / 32 * 2 ^ 25 + ext v 11 0 % 32 * 2 ^ 20 := by omega
  rw [e]

theorem stype_eq {v : Int} {b a f3 op : Nat} (hb : b < 32) (ha : a < 32) (h3 : f3 < 8) (ho : op < 128) :
    stype v b a f3 op = fields (ext v 11 5) b a f3 (ext v 4 0) op := by
  unfold stype
  simp only [Nat.shiftLeft_eq]
  exact or_fields hb ha h3 (ext_lt v 4 0) ho

theorem utype_eq {v : Int} {d op : Nat} (hd : d < 32) (ho : op < 128) :
    utype v d op = fields (ext v 31 12 / 8192) (ext v 31 12 / 256 % 32) (ext v 31 12 / 8 % 32) (ext v 31 12 % 8) d op := by
  have h := ext_lt v 31 12
  unfold utype
  simp only [Nat.shiftLeft_eq]
  rw [or_add (b := d * 2 ^ 7) (i := 12) (by omega) (by omega), or_add (i := 7) (by omega) (by omega)]
  unfold fields
  omega

theorem swizzleJ_eq (v : Int) : swizzleJ v =
    ext v 20 20 * 2 ^ 31 + ext v 10 1 * 2 ^ 21 + ext v 11 11 * 2 ^ 20 + ext v 19 12 * 2 ^ 12 := by
  have h1 := ext_lt v 20 20
  have h2 := ext_lt v 10 1
  have h3 := ext_lt v 11 11
  have h4 := ext_lt v 19 12
  unfold swizzleJ
  simp only [Nat.shiftLeft_eq]
  rw [or_add (a := ext v 20 20 * 2 ^ 31) (i := 31) (by omega) (by omega),
    or_add (b := ext v 11 11 * 2 ^ 20) (i := 21) (by omega) (by omega), or_add (i := 20) (by omega) (by omega)]

theorem shift_aux (x y : Nat) : x * 2 ^ 31 + y * 2 ^ 25 = (x * 64 + y) * 2 ^ 25 := by omega

theorem shift_aux' (x y : Nat) : x * 2 ^ 8 + y * 2 ^ 7 = (x * 2 + y) * 2 ^ 7 := by omega

theorem branch_eq {v : Int} {a b f3 : Nat} (hb : b < 32) (ha : a < 32) (h3 : f3 < 8) :
    stype 0 b a f3 0x63 ||| swizzleB v =
      fields (ext v 12 12 * 64 + ext v 10 5) b a f3 (ext v 4 1 * 2 + ext v 11 11) 0x63 := by
  have h1 := ext_lt v 12 12
  have h2 := ext_lt v 10 5
  have h4 := ext_lt v 4 1
  have h5 := ext_lt v 11 11
  have e : ∀ x0 x1 x2 x3 x4 x5 y0 y1 y2 y3 : Nat,
      (x0 ||| x1 ||| x2 ||| x3 ||| x4 ||| x5) ||| (y0 ||| y1 ||| y2 ||| y3) =
        ((y0 ||| y1) ||| x0) ||| x1 ||| x2 ||| x3 ||| ((y2 ||| y3) ||| x4) ||| x5 := by
    intros; ac_rfl
  unfold stype swizzleB
  simp only [Nat.shiftLeft_eq]
  rw [e]
  have z1 : ext 0 11 5 = 0 := rfl
  have z2 : ext 0 4 0 = 0 := rfl
  rw [z1, z2, or_add (a := ext v 12 12 * 2 ^ 31) (i := 31) (by omega) (by omega),
    or_add (a := ext v 4 1 * 2 ^ 8) (i := 8) (by omega) (by omega), Nat.zero_mul, Nat.or_zero, Nat.or_zero,
    ← or_fields hb ha h3 (by omega) (by omega)]
  have e1 : ext v 12 12 * 2 ^ 31 + ext v 10 5 * 2 ^ 25 = (ext v 12 12 * 64 + ext v 10 5) * 2 ^ 25 :=
    shift_aux _ _
  have e2 : ext v 4 1 * 2 ^ 8 + ext v 11 11 * 2 ^ 7 = (ext v 4 1 * 2 + ext v 11 11) * 2 ^ 7 :=
    shift_aux' _ _
  rw [e1, e2]

theorem decode32_fields {f7 rs2 a f3 d op : Nat} (h7 : f7 < 128) (h2 : rs2 < 32) (ha : a < 32) (h3 : f3 < 8) (hd : d < 32)
    (ho : op < 128) : decode32 (fields f7 rs2 a f3 d op) = decodeFields op d f3 a rs2 f7 := by
  unfold decode32 fields
  have e1 : (f7 * 2 ^ 25 + rs2 * 2 ^ 20 + a * 2 ^ 15 + f3 * 2 ^ 12 + d * 2 ^ 7 + op) % 128 = op := by omega
  have e2 : (f7 * 2 ^ 25 + rs2 * 2 ^ 20 + a * 2 ^ 15 + f3 * 2 ^ 12 + d * 2 ^ 7 + op) / 2 ^ 7 % 32 = d := by omega
  have e3 : (f7 * 2 ^ 25 + rs2 * 2 ^ 20 + a * 2 ^ 15 + f3 * 2 ^ 12 + d * 2 ^ 7 + op) / 2 ^ 12 % 8 = f3 := by omega
  have e4 : (f7 * 2 ^ 25 + rs2 * 2 ^ 20 + a * 2 ^ 15 + f3 * 2 ^ 12 + d * 2 ^ 7 + op) / 2 ^ 15 % 32 = a := by omega
  have e5 : (f7 * 2 ^ 25 + rs2 * 2 ^ 20 + a * 2 ^ 15 + f3 * 2 ^ 12 + d * 2 ^ 7 + op) / 2 ^ 20 % 32 = rs2 := by omega
  have e6 : (f7 * 2 ^ 25 + rs2 * 2 ^ 20 + a * 2 ^ 15 + f3 * 2 ^ 12 + d * 2 ^ 7 + op) / 2 ^ 25 % 128 = f7 := by omega
  rw [e1, e2, e3, e4, e5, e6]

/-- Reading a 32-bit instruction. -/
theorem reads32 {w : Nat} {i : Insn} {t : List Nat} {is : List (Insn × Nat)} (hw : w < 2 ^ 32) (h3 : w % 4 = 3)
    (h7 : w / 4 % 8 ≠ 7) (hd : decode32 w = some i) (ht : Reads t is) : Reads (c32 w ++ t) ((i, 4) :: is) := by
  refine Reads.cons ?_ (by simpa [c32] using ht)
  have e : w % 256 + 256 * (w / 256 % 256) + 65536 * (w / 65536 % 256 + 256 * (w / 16777216 % 256)) = w := by omega
  have e3 : (w % 256 + 256 * (w / 256 % 256)) % 4 = 3 := by omega
  have e7 : (w % 256 + 256 * (w / 256 % 256)) / 4 % 8 ≠ 7 := by omega
  simp only [c32, List.cons_append, decode1]
  rw [if_neg (by omega), if_neg e7, e, hd]
  rfl

theorem reads_fields {f7 rs2 a f3 d op : Nat} {i : Insn} {t : List Nat} {is : List (Insn × Nat)}
    (hd' : decodeFields op d f3 a rs2 f7 = some i) (ht : Reads t is)
    (h7 : f7 < 128) (h2 : rs2 < 32) (ha : a < 32) (h3 : f3 < 8) (hd : d < 32) (ho : op < 128) (ho3 : op % 4 = 3)
    (ho7 : op / 4 % 8 ≠ 7) : Reads (c32 (fields f7 rs2 a f3 d op) ++ t) ((i, 4) :: is) := by
  refine reads32 ?_ ?_ ?_ ((decode32_fields h7 h2 ha h3 hd ho).trans hd') ht <;> unfold fields <;> omega

/-- Reading a 16-bit instruction. -/
theorem reads16 {h : Nat} {i : Insn} {t : List Nat} {is : List (Insn × Nat)} (hw : h < 65536) (h3 : h % 4 ≠ 3)
    (hd : decode16 h = some i) (ht : Reads t is) : Reads (c16 h ++ t) ((i, 2) :: is) := by
  refine Reads.cons ?_ (by simpa [c16] using ht)
  have e : h % 256 + 256 * (h / 256 % 256) = h := by omega
  simp only [c16, List.cons_append, decode1]
  rw [if_pos (by omega), e, hd]
  rfl

/-- One instruction. -/
theorem Reads.one {b : List Nat} {i : Insn × Nat} (h : Reads (b ++ []) [i]) : Reads b [i] := by simpa using h

theorem sgn_ext {v : Int} {n : Nat} (hn : 1 ≤ n) (h1 : -2 ^ (n - 1) ≤ v) (h2 : v < 2 ^ (n - 1)) :
    sgn n (ext v (n - 1) 0) = v := by
  obtain ⟨m, rfl⟩ := Nat.exists_eq_add_of_le hn
  have e := ext_val v (1 + m - 1) 0
  have e1 : 1 + m - 1 - 0 + 1 = m + 1 := by omega
  have e2 : (1 + m - 1) = m := by omega
  rw [e1] at e
  rw [e2] at h1 h2
  have hp : (2 : Int) ^ (m + 1) = 2 * 2 ^ m := by rw [Int.pow_succ, Int.mul_comm]
  have hp' : (2 : Int) ^ (1 + m) = 2 * 2 ^ m := by rw [Nat.add_comm, hp]
  have hpos : (0 : Int) < 2 ^ m := Int.pow_pos (by omega)
  have h0 : v / 2 ^ 0 = v := by simp
  rw [h0, hp] at e
  unfold sgn
  rw [e2, hp']
  have hc : (((2 : Nat) ^ m : Nat) : Int) = 2 ^ m := by norm_cast
  by_cases hv : 0 ≤ v
  · rw [Int.emod_eq_of_lt hv (by omega), e2] at e
    rw [if_pos (by omega)]
    omega
  · have hm : v % (2 * 2 ^ m) = v + 2 * 2 ^ m := by
      rw [← Int.add_emod_right, Int.emod_eq_of_lt (by omega) (by omega)]
    rw [hm] at e
    rw [e2] at e
    rw [if_neg (by omega)]
    omega

end Nature.Riscv
