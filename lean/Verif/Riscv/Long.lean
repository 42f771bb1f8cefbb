import Verif.Riscv.Short
/-! The 32-bit instructions. -/
namespace Nature.Riscv

variable {t : List Nat} {is : List (Insn × Nat)}

theorem wR_reads (op : ROp) {d a b : Nat} (hd : d < 32) (ha : a < 32) (hb : b < 32) (ht : Reads t is) :
    Reads (wR op d a b ++ t) ((.r op d a b, 4) :: is) := by
  unfold wR
  rw [rtype_eq hb ha (by cases op <;> decide) hd (by cases op <;> decide)]
  refine reads_fields ?_ ht ?_ hb ha ?_ hd ?_ ?_ ?_
  · cases op <;> rfl
  all_goals cases op <;> decide

theorem ext12_lt (v : Int) : ext v 11 0 < 4096 := ext_lt v 11 0

theorem join32 (e : Nat) : e / 32 * 32 + e % 32 = e := by omega

theorem sgn12 {v : Int} (h : im12 v) : sgn 12 (ext v 11 0 / 32 * 32 + ext v 11 0 % 32) = v := by
  rw [join32]
  exact sgn_ext (n := 12) (by omega) h.1 h.2

/-- Instructions with an immediate in the place of `rs2` and funct7. -/
theorem itype_reads {v : Int} {a f3 d op : Nat} {i : Insn} (hd : d < 32) (ha : a < 32) (h3 : f3 < 8) (ho : op < 128)
    (ho3 : op % 4 = 3) (ho7 : op / 4 % 8 ≠ 7) (h : decodeFields op d f3 a (ext v 11 0 % 32) (ext v 11 0 / 32) = some i)
    (ht : Reads t is) : Reads (c32 (itype v a f3 d op) ++ t) ((i, 4) :: is) := by
  have := ext12_lt v
  rw [itype_eq ha h3 hd ho]
  exact reads_fields h ht (by omega) (by omega) ha h3 hd ho ho3 ho7

theorem ext_small {k : Nat} (h : k < 4096) : ext (k : Int) 11 0 = k := by
  have := ext_val (k : Int) 11 0
  simp only [Int.pow_zero, Int.ediv_one] at this
  omega

theorem wI_reads (op : IOp) {d a : Nat} {v : Int} (hd : d < 32) (ha : a < 32) (hv : (Req.rri op d a v).numbers) (ht : Reads t is) :
    Reads (wI op d a v ++ t) ((.i op d a v, 4) :: is) := by
  cases op
  case addi | andi | ori | xori | slti | sltiu =>
    refine itype_reads hd ha (by decide) (by decide) (by decide) (by decide) ?_ ht
    exact congrArg (fun x => some (Insn.i _ d a x)) (sgn12 hv)
  case addiw =>
    refine itype_reads hd ha (by decide) (by decide) (by decide) (by decide) ?_ ht
    exact congrArg (fun x => some (Insn.i _ d a x)) (sgn12 hv)
  case slli =>
    obtain ⟨k, rfl⟩ := Int.eq_ofNat_of_zero_le hv.1
    have hk : k < 64 := by have := hv.2; omega
    refine itype_reads hd ha (by decide) (by decide) (by decide) (by decide) ?_ ht
    rw [show ((k : Int) % 64) = ((k : Nat) : Int) by omega, ext_small (by omega)]
    show (if k / 32 / 2 = 0 then some (Insn.i .slli d a (((k / 32 % 2 * 32 + k % 32 : Nat)) : Int)) else none) = _
    rw [if_pos (by omega), show k / 32 % 2 * 32 + k % 32 = k by omega]
  case srli =>
    obtain ⟨k, rfl⟩ := Int.eq_ofNat_of_zero_le hv.1
    have hk : k < 64 := by have := hv.2; omega
    refine itype_reads hd ha (by decide) (by decide) (by decide) (by decide) ?_ ht
    rw [show ((k : Int) % 64) = ((k : Nat) : Int) by omega, ext_small (by omega)]
    show (if k / 32 / 2 = 0 then some (Insn.i .srli d a (((k / 32 % 2 * 32 + k % 32 : Nat)) : Int)) else _) = _
    rw [if_pos (by omega), show k / 32 % 2 * 32 + k % 32 = k by omega]
  case srai =>
    obtain ⟨k, rfl⟩ := Int.eq_ofNat_of_zero_le hv.1
    have hk : k < 64 := by have := hv.2; omega
    refine itype_reads hd ha (by decide) (by decide) (by decide) (by decide) ?_ ht
    rw [show (0x400 + (k : Int) % 64) = ((1024 + k : Nat) : Int) by omega, ext_small (by omega)]
    show (if (1024 + k) / 32 / 2 = 0 then _ else if (1024 + k) / 32 / 2 = 16 then
      some (Insn.i .srai d a ((((1024 + k) / 32 % 2 * 32 + (1024 + k) % 32 : Nat)) : Int)) else _) = _
    rw [if_neg (by omega), if_pos (by omega), show (1024 + k) / 32 % 2 * 32 + (1024 + k) % 32 = k by omega]
  case slliw =>
    obtain ⟨k, rfl⟩ := Int.eq_ofNat_of_zero_le hv.1
    have hk : k < 32 := by have := hv.2; omega
    refine itype_reads hd ha (by decide) (by decide) (by decide) (by decide) ?_ ht
    rw [show ((k : Int) % 32) = ((k : Nat) : Int) by omega, ext_small (by omega)]
    show (if k / 32 = 0 then some (Insn.i .slliw d a ((k % 32 : Nat) : Int)) else none) = _
    rw [if_pos (by omega), show k % 32 = k by omega]
  case srliw =>
    obtain ⟨k, rfl⟩ := Int.eq_ofNat_of_zero_le hv.1
    have hk : k < 32 := by have := hv.2; omega
    refine itype_reads hd ha (by decide) (by decide) (by decide) (by decide) ?_ ht
    rw [show ((k : Int) % 64) = ((k : Nat) : Int) by omega, ext_small (by omega)]
    show (if k / 32 = 0 then some (Insn.i .srliw d a ((k % 32 : Nat) : Int)) else _) = _
    rw [if_pos (by omega), show k % 32 = k by omega]
  case sraiw =>
    obtain ⟨k, rfl⟩ := Int.eq_ofNat_of_zero_le hv.1
    have hk : k < 32 := by have := hv.2; omega
    refine itype_reads hd ha (by decide) (by decide) (by decide) (by decide) ?_ ht
    rw [show (0x400 + (k : Int) % 64) = ((1024 + k : Nat) : Int) by omega, ext_small (by omega)]
    show (if (1024 + k) / 32 = 0 then _ else if (1024 + k) / 32 = 0x20 then
      some (Insn.i .sraiw d a (((1024 + k) % 32 : Nat) : Int)) else _) = _
    rw [if_neg (by omega), if_pos (by omega), show (1024 + k) % 32 = k by omega]

theorem load_reads (op : LOp) {d a : Nat} {off : Int} {f3 : Nat} (h : lOp f3 = some op) (h3 : f3 < 8) (hd : d < 32) (ha : a < 32)
    (hv : im12 off) (ht : Reads t is) : Reads (c32 (itype off a f3 d 0x03) ++ t) ((.load op d a off, 4) :: is) := by
  refine itype_reads hd ha h3 (by decide) (by decide) (by decide) ?_ ht
  show (lOp f3).map _ = _
  rw [h]
  exact congrArg (fun x => some (Insn.load op d a x)) (sgn12 hv)

theorem fload_reads (b : Bool) {d a : Nat} {off : Int} (hd : d < 32) (ha : a < 32)
    (hv : im12 off) (ht : Reads t is) :
    Reads (c32 (itype off a (if b then 3 else 2) d 0x07) ++ t) ((.fload b d a off, 4) :: is) := by
  refine itype_reads hd ha (by cases b <;> decide) (by decide) (by decide) (by decide) ?_ ht
  show (fmt (if b then 3 else 2)).map _ = _
  have : fmt (if b then 3 else 2) = some b := by cases b <;> rfl
  rw [this]
  exact congrArg (fun x => some (Insn.fload b d a x)) (sgn12 hv)

theorem jalr_reads {d a : Nat} {off : Int} (hd : d < 32) (ha : a < 32) (ht : Reads t is) :
    Reads (c32 (itype off a 0 d 0x67) ++ t) ((.jalr d a (sgn 12 (ext off 11 0)), 4) :: is) := by
  refine itype_reads hd ha (by decide) (by decide) (by decide) (by decide) ?_ ht
  exact congrArg (fun x => some (Insn.jalr d a (sgn 12 x))) (join32 _)

theorem ext_split (v : Int) : ext v 11 5 * 32 + ext v 4 0 = ext v 11 0 := by
  have h1 := ext_val v 11 5
  have h2 := ext_val v 4 0
  have h3 := ext_val v 11 0
  simp only [Int.pow_zero, Int.ediv_one] at h1 h2 h3
  have e1 : (2 : Int) ^ 5 = 32 := rfl
  have e2 : (2 : Int) ^ (11 - 5 + 1) = 128 := rfl
  have e3 : (2 : Int) ^ (4 - 0 + 1) = 32 := rfl
  have e4 : (2 : Int) ^ (11 - 0 + 1) = 4096 := rfl
  rw [e1, e2] at h1
  rw [e3] at h2
  rw [e4] at h3
  omega

theorem stype_reads {v : Int} {a f3 b op : Nat} {i : Insn} (hb : b < 32) (ha : a < 32) (h3 : f3 < 8) (ho : op < 128)
    (ho3 : op % 4 = 3) (ho7 : op / 4 % 8 ≠ 7) (h : decodeFields op (ext v 4 0) f3 a b (ext v 11 5) = some i)
    (ht : Reads t is) : Reads (c32 (stype v b a f3 op) ++ t) ((i, 4) :: is) := by
  rw [stype_eq hb ha h3 ho]
  exact reads_fields h ht (ext_lt v 11 5) hb ha h3 (ext_lt v 4 0) ho ho3 ho7

theorem sgn12' {v : Int} (h : im12 v) : sgn 12 (ext v 11 5 * 32 + ext v 4 0) = v := by
  rw [ext_split]
  exact sgn_ext (n := 12) (by omega) h.1 h.2

theorem store_reads (op : SOp) {b a : Nat} {off : Int} {f3 : Nat} (h : sOp f3 = some op) (h3 : f3 < 8) (hb : b < 32) (ha : a < 32)
    (hv : im12 off) (ht : Reads t is) : Reads (c32 (stype off b a f3 0x23) ++ t) ((.store op b a off, 4) :: is) := by
  refine stype_reads hb ha h3 (by decide) (by decide) (by decide) ?_ ht
  show (sOp f3).map _ = _
  rw [h]
  exact congrArg (fun x => some (Insn.store op b a x)) (sgn12' hv)

theorem fstore_reads (b : Bool) {d a : Nat} {off : Int} (hd : d < 32) (ha : a < 32)
    (hv : im12 off) (ht : Reads t is) :
    Reads (c32 (stype off d a (if b then 3 else 2) 0x27) ++ t) ((.fstore b d a off, 4) :: is) := by
  refine stype_reads hd ha (by cases b <;> decide) (by decide) (by decide) (by decide) ?_ ht
  show (fmt (if b then 3 else 2)).map _ = _
  have : fmt (if b then 3 else 2) = some b := by cases b <;> rfl
  rw [this]
  exact congrArg (fun x => some (Insn.fstore b d a x)) (sgn12' hv)

theorem join20 (e : Nat) : e / 8192 * 8192 + e / 256 % 32 * 256 + e / 8 % 32 * 8 + e % 8 = e := by omega

theorem utype_reads {v : Int} {d op : Nat} {i : Insn} (hd : d < 32) (ho : op < 128)
    (ho3 : op % 4 = 3) (ho7 : op / 4 % 8 ≠ 7)
    (h : decodeFields op d (ext v 31 12 % 8) (ext v 31 12 / 8 % 32) (ext v 31 12 / 256 % 32) (ext v 31 12 / 8192) = some i)
    (ht : Reads t is) : Reads (c32 (utype v d op) ++ t) ((i, 4) :: is) := by
  have := ext_lt v 31 12
  rw [utype_eq hd ho]
  exact reads_fields h ht (by omega) (by omega) (by omega) (by omega) hd ho ho3 ho7

theorem lui_reads {d : Nat} {v : Int} (hd : d < 32) (ht : Reads t is) :
    Reads (c32 (utype v d 0x37) ++ t) ((.lui d (sgn 20 (ext v 31 12)), 4) :: is) :=
  utype_reads hd (by decide) (by decide) (by decide) (congrArg (fun x => some (Insn.lui d (sgn 20 x))) (join20 _)) ht

theorem auipc_reads {d : Nat} {v : Int} (hd : d < 32) (ht : Reads t is) :
    Reads (c32 (utype v d 0x17) ++ t) ((.auipc d (sgn 20 (ext v 31 12)), 4) :: is) :=
  utype_reads hd (by decide) (by decide) (by decide) (congrArg (fun x => some (Insn.auipc d (sgn 20 x))) (join20 _)) ht

theorem ext_bits13 (v : Int) (h : v % 2 = 0) :
    ext v 12 12 * 4096 + ext v 11 11 * 2048 + ext v 10 5 * 32 + ext v 4 1 * 2 = ext v 12 0 := by
  have h1 := ext_val v 12 12
  have h2 := ext_val v 11 11
  have h3 := ext_val v 10 5
  have h4 := ext_val v 4 1
  have h5 := ext_val v 12 0
  simp only [Int.pow_zero, Int.ediv_one] at h1 h2 h3 h4 h5
  have p1 : (2 : Int) ^ 12 = 4096 := rfl
  have p2 : (2 : Int) ^ 11 = 2048 := rfl
  have p3 : (2 : Int) ^ 5 = 32 := rfl
  have p4 : (2 : Int) ^ 1 = 2 := rfl
  have p5 : (2 : Int) ^ (12 - 12 + 1) = 2 := rfl
  have p6 : (2 : Int) ^ (11 - 11 + 1) = 2 := rfl
  have p7 : (2 : Int) ^ (10 - 5 + 1) = 64 := rfl
  have p8 : (2 : Int) ^ (4 - 1 + 1) = 16 := rfl
  have p9 : (2 : Int) ^ (12 - 0 + 1) = 8192 := rfl
  rw [p1, p5] at h1
  rw [p2, p6] at h2
  rw [p3, p7] at h3
  rw [p4, p8] at h4
  rw [p9] at h5
  omega

theorem branch_reads (op : BOp) {a b : Nat} {off : Int} (ha : a < 32) (hb : b < 32) (h1 : -2 ^ 12 ≤ off) (h2 : off < 2 ^ 12)
    (h3 : off % 2 = 0) (ht : Reads t is) :
    Reads (c32 (stype 0 b a (bCode op) 0x63 ||| swizzleB off) ++ t) ((.branch op a b off, 4) :: is) := by
  have g1 := ext_lt off 12 12
  have g2 := ext_lt off 10 5
  have g3 := ext_lt off 4 1
  have g4 := ext_lt off 11 11
  rw [branch_eq hb ha (by cases op <;> decide)]
  refine reads_fields ?_ ht (by omega) hb ha (by cases op <;> decide) (by omega) (by decide) (by decide) (by decide)
  show (bOp (bCode op)).map _ = _
  have e : bOp (bCode op) = some op := by cases op <;> rfl
  rw [e]
  have e2 : (ext off 12 12 * 64 + ext off 10 5) / 64 * 4096 + (ext off 4 1 * 2 + ext off 11 11) % 2 * 2048 +
      (ext off 12 12 * 64 + ext off 10 5) % 64 * 32 + (ext off 4 1 * 2 + ext off 11 11) / 2 * 2 = ext off 12 0 := by
    rw [← ext_bits13 off h3]
    omega
  show some (Insn.branch op a b (sgn 13 _)) = _
  rw [e2, sgn_ext (n := 13) (by omega) h1 h2]

theorem ext_bits21 (v : Int) (h : v % 2 = 0) :
    ext v 20 20 * 1048576 + ext v 19 12 * 4096 + ext v 11 11 * 2048 + ext v 10 1 * 2 = ext v 20 0 := by
  have h1 := ext_val v 20 20
  have h2 := ext_val v 19 12
  have h3 := ext_val v 11 11
  have h4 := ext_val v 10 1
  have h5 := ext_val v 20 0
  simp only [Int.pow_zero, Int.ediv_one] at h1 h2 h3 h4 h5
  have p1 : (2 : Int) ^ 20 = 1048576 := rfl
  have p2 : (2 : Int) ^ 12 = 4096 := rfl
  have p3 : (2 : Int) ^ 11 = 2048 := rfl
  have p4 : (2 : Int) ^ 1 = 2 := rfl
  have p5 : (2 : Int) ^ (20 - 20 + 1) = 2 := rfl
  have p6 : (2 : Int) ^ (19 - 12 + 1) = 256 := rfl
  have p7 : (2 : Int) ^ (11 - 11 + 1) = 2 := rfl
  have p8 : (2 : Int) ^ (10 - 1 + 1) = 1024 := rfl
  have p9 : (2 : Int) ^ (20 - 0 + 1) = 2097152 := rfl
  rw [p1, p5] at h1
  rw [p2, p6] at h2
  rw [p3, p7] at h3
  rw [p4, p8] at h4
  rw [p9] at h5
  omega

theorem ext_nat (n : Nat) (h : n < 2 ^ 32) : ext (n : Int) 31 12 = n / 4096 := by
  have h1 := ext_val (n : Int) 31 12
  have p1 : (2 : Int) ^ 12 = 4096 := rfl
  have p2 : (2 : Int) ^ (31 - 12 + 1) = 1048576 := rfl
  rw [p1, p2] at h1
  omega

theorem jal_aux {x y z w : Nat} (hx : x < 2) (hy : y < 1024) (hz : z < 2) (hw : w < 256) :
    let e := (x * 2 ^ 31 + y * 2 ^ 21 + z * 2 ^ 20 + w * 2 ^ 12) / 4096
    e / 8192 / 64 * 1048576 + (e / 8 % 32 * 8 + e % 8) * 4096 + e / 256 % 32 % 2 * 2048 + e / 8192 % 64 * 32 + e / 256 % 32 / 2 * 2 =
      x * 1048576 + w * 4096 + z * 2048 + y * 2 := by
  intro e
  have he : e = x * 524288 + y * 512 + z * 256 + w := by simp only [e]; omega
  generalize e = q at he
  omega

theorem jal_reads {off : Int} (h1 : -2 ^ 20 ≤ off) (h2 : off < 2 ^ 20) (h3 : off % 2 = 0) (ht : Reads t is) :
    Reads (c32 (utype (swizzleJ off : Int) 0 0x6f) ++ t) ((.jal 0 off, 4) :: is) := by
  have g1 := ext_lt off 20 20
  have g2 := ext_lt off 10 1
  have g3 := ext_lt off 11 11
  have g4 := ext_lt off 19 12
  have hlt : swizzleJ off < 2 ^ 32 := by rw [swizzleJ_eq]; omega
  refine utype_reads (by decide) (by decide) (by decide) (by decide) ?_ ht
  rw [ext_nat _ hlt, swizzleJ_eq]
  show some (Insn.jal 0 (sgn 21 _)) = _
  rw [jal_aux g1 g2 g3 g4, ext_bits21 off h3, sgn_ext (n := 21) (by omega) h1 h2]

theorem rtype_reads {f7 rs2 a f3 d op : Nat} {i : Insn} (h7 : f7 < 128) (h2 : rs2 < 32) (ha : a < 32) (h3 : f3 < 8) (hd : d < 32)
    (ho : op < 128) (ho3 : op % 4 = 3) (ho7 : op / 4 % 8 ≠ 7) (h : decodeFields op d f3 a rs2 f7 = some i) (ht : Reads t is) :
    Reads (c32 (rtype f7 rs2 a f3 d op) ++ t) ((i, 4) :: is) := by
  rw [rtype_eq h2 ha h3 hd ho]
  exact reads_fields h ht h7 h2 ha h3 hd ho ho3 ho7

end Nature.Riscv
