import Verif.Arm64.Spec
/-!
Model of the arm64 encoder: src/binary/encoding/arm64/asm.h and opcode.c.

Simplified: registers have 4 or 8 bytes (others stop the compiler, opcode.c:939-941, 953-955), are named as in
src/register/arch/arm64.c, and `sp` is the only one with number 31 that is not a zero register; 32-bit arithmetic of the macros
is arithmetic on natural numbers, as no field here reaches bit 32 unless `sh` cuts it off; a condition is one of the sixteen; an
assertion that fails, a missing table entry and the result 0 are all `none` (opcode.c:1125, 1130).
-/
namespace Nature.Arm64

/-! ### Numbers -/

/-- The number of a register (src/register/arch/arm64.c:98-134). -/
def R.num : R → Nat
  | .x n => n
  | .zr => 31
  | .sp => 31

/-- is_sp (opcode.c:9-11). -/
def R.isSp (r : R) : Bool := r == .sp

/-- `v & ((1U << n) - 1)` for a 64-bit number. -/
def low (n : Nat) (v : Int) : Nat := (v % 2 ^ n).toNat

/-- `v << k` as it ends up in the 32-bit result, for a 64-bit number that is not masked. -/
def sh (v : Int) (k : Nat) : Nat := (v * 2 ^ k % 2 ^ 32).toNat

/-- A width as the macros use it. -/
def bit (q : Bool) : Nat := if q then 1 else 0

/-! ### The macros of asm.h -/

/-- asm.h:531-533 -/
def W_MOVK (sz rd : Nat) (imm sft : Int) : Nat := 0x72800000 ||| (sz <<< 31) ||| sh sft 21 ||| (low 16 imm <<< 5) ||| rd
def W_MOVZ (sz rd : Nat) (imm : Int) (sft : Nat) : Nat := 0x52800000 ||| (sz <<< 31) ||| (sft <<< 21) ||| (low 16 imm <<< 5) ||| rd
def W_MOVN (sz rd : Nat) (imm : Int) (sft : Nat) : Nat := 0x12800000 ||| (sz <<< 31) ||| (sft <<< 21) ||| (low 16 imm <<< 5) ||| rd
/-- asm.h:535-544 -/
def W_ADD_I (sz rd rn : Nat) (imm : Int) : Nat := 0x11000000 ||| (sz <<< 31) ||| (low 12 imm <<< 10) ||| (rn <<< 5) ||| rd
def W_ADD_S (sz rd rn rm : Nat) (sft : Nat) (imm : Int) : Nat :=
  0x0b000000 ||| (sz <<< 31) ||| (sft <<< 22) ||| (rm <<< 16) ||| (low 6 imm <<< 10) ||| (rn <<< 5) ||| rd
def W_ADD_E (sz rd rn rm : Nat) (option ov : Int) : Nat :=
  0x0b200000 ||| (sz <<< 31) ||| (rm <<< 16) ||| sh option 13 ||| sh ov 10 ||| (rn <<< 5) ||| rd
def W_ADDS_I (sz rd rn : Nat) (imm : Int) : Nat := 0x31000000 ||| (sz <<< 31) ||| (low 12 imm <<< 10) ||| (rn <<< 5) ||| rd
def W_ADDS_S (sz rd rn rm : Nat) (imm : Int) : Nat :=
  0x2b000000 ||| (sz <<< 31) ||| (rm <<< 16) ||| (low 6 imm <<< 10) ||| (rn <<< 5) ||| rd
def W_SUB_I (sz rd rn : Nat) (imm : Int) : Nat := 0x51000000 ||| (sz <<< 31) ||| (low 12 imm <<< 10) ||| (rn <<< 5) ||| rd
def W_SUB_S (sz rd rn rm : Nat) (sft : Nat) (imm : Int) : Nat :=
  0x4b000000 ||| (sz <<< 31) ||| (sft <<< 22) ||| (rm <<< 16) ||| (low 6 imm <<< 10) ||| (rn <<< 5) ||| rd
def W_SUBS_I (sz rd rn : Nat) (imm : Int) : Nat := 0x71000000 ||| (sz <<< 31) ||| (low 12 imm <<< 10) ||| (rn <<< 5) ||| rd
def W_SUBS_S (sz rd rn rm : Nat) (imm : Int) : Nat :=
  0x6b000000 ||| (sz <<< 31) ||| (rm <<< 16) ||| (low 6 imm <<< 10) ||| (rn <<< 5) ||| rd
def W_SUB_E (sz rd rn rm : Nat) (option ov : Int) : Nat :=
  0x4b200000 ||| (sz <<< 31) ||| (rm <<< 16) ||| sh option 13 ||| sh ov 10 ||| (rn <<< 5) ||| rd
/-- asm.h:545-552 -/
def W_MADD (sz rd rn rm ra : Nat) : Nat := 0x1b000000 ||| (sz <<< 31) ||| (rm <<< 16) ||| (ra <<< 10) ||| (rn <<< 5) ||| rd
def W_MSUB (sz rd rn rm ra : Nat) : Nat := 0x1b008000 ||| (sz <<< 31) ||| (rm <<< 16) ||| (ra <<< 10) ||| (rn <<< 5) ||| rd
def W_SDIV (sz rd rn rm : Nat) : Nat := 0x1ac00c00 ||| (sz <<< 31) ||| (rm <<< 16) ||| (rn <<< 5) ||| rd
def W_UDIV (sz rd rn rm : Nat) : Nat := 0x1ac00800 ||| (sz <<< 31) ||| (rm <<< 16) ||| (rn <<< 5) ||| rd
def W_AND_S (sz rd rn rm : Nat) (imm : Int) : Nat :=
  0x0a000000 ||| (sz <<< 31) ||| (rm <<< 16) ||| (low 6 imm <<< 10) ||| (rn <<< 5) ||| rd
def W_ORR_S (sz rd rn rm : Nat) (imm : Int) : Nat :=
  0x2a000000 ||| (sz <<< 31) ||| (rm <<< 16) ||| (low 6 imm <<< 10) ||| (rn <<< 5) ||| rd
def W_EOR_S (sz rd rn rm : Nat) (imm : Int) : Nat :=
  0x4a000000 ||| (sz <<< 31) ||| (rm <<< 16) ||| (low 6 imm <<< 10) ||| (rn <<< 5) ||| rd
def W_EON_S (sz rd rn rm : Nat) (imm : Int) : Nat :=
  0x4a200000 ||| (sz <<< 31) ||| (rm <<< 16) ||| (low 6 imm <<< 10) ||| (rn <<< 5) ||| rd
/-- asm.h:554-556 -/
def W_LSLV (sz rd rn rm : Nat) : Nat := 0x1ac02000 ||| (sz <<< 31) ||| (rm <<< 16) ||| (rn <<< 5) ||| rd
def W_LSRV (sz rd rn rm : Nat) : Nat := 0x1ac02400 ||| (sz <<< 31) ||| (rm <<< 16) ||| (rn <<< 5) ||| rd
def W_ASRV (sz rd rn rm : Nat) : Nat := 0x1ac02800 ||| (sz <<< 31) ||| (rm <<< 16) ||| (rn <<< 5) ||| rd
/-- asm.h:558-559 -/
def W_SBFM (sz rd sn rn : Nat) (immr imms : Int) : Nat :=
  0x13000000 ||| (sz <<< 31) ||| (sn <<< 22) ||| sh immr 16 ||| sh imms 10 ||| (rn <<< 5) ||| rd
def W_UBFM (sz rd sn rn : Nat) (immr imms : Int) : Nat :=
  0x53000000 ||| (sz <<< 31) ||| (sn <<< 22) ||| sh immr 16 ||| sh imms 10 ||| (rn <<< 5) ||| rd
/-- asm.h:561-568 -/
def W_LDUR (b s rt : Nat) (ofs : Int) (base : Nat) : Nat :=
  0x38400000 ||| (b <<< 30) ||| (s <<< 23) ||| (low 9 ofs <<< 12) ||| (base <<< 5) ||| rt
def W_LDR_UIMM (b s rt : Nat) (ofs : Int) (base : Nat) : Nat :=
  0x39400000 ||| (b <<< 30) ||| (s <<< 23) ||| (low 12 ofs <<< 10) ||| (base <<< 5) ||| rt
def W_LDR (b s rt : Nat) (ofs : Int) (base prepost : Nat) : Nat :=
  0x38400000 ||| (b <<< 30) ||| (s <<< 23) ||| (low 9 ofs <<< 12) ||| (prepost <<< 10) ||| (base <<< 5) ||| rt
def W_STUR (b rt : Nat) (ofs : Int) (base : Nat) : Nat := 0x38000000 ||| (b <<< 30) ||| (low 9 ofs <<< 12) ||| (base <<< 5) ||| rt
def W_STR_UIMM (b rt : Nat) (ofs : Int) (base : Nat) : Nat :=
  0x39000000 ||| (b <<< 30) ||| (low 12 ofs <<< 10) ||| (base <<< 5) ||| rt
def W_STR (b rt : Nat) (ofs : Int) (base prepost : Nat) : Nat :=
  0x38000000 ||| (b <<< 30) ||| (low 9 ofs <<< 12) ||| (prepost <<< 10) ||| (base <<< 5) ||| rt
def W_LDP (sz rs1 rs2 : Nat) (ofs : Int) (base prepost : Nat) : Nat :=
  0x28400000 ||| (sz <<< 31) ||| (prepost <<< 23) ||| (low 7 (ofs / 8) <<< 15) ||| (rs2 <<< 10) ||| (base <<< 5) ||| rs1
def W_STP (sz rs1 rs2 : Nat) (ofs : Int) (base prepost : Nat) : Nat :=
  0x28000000 ||| (sz <<< 31) ||| (prepost <<< 23) ||| (low 7 (ofs / 8) <<< 15) ||| (rs2 <<< 10) ||| (base <<< 5) ||| rs1
/-- asm.h:570-573 -/
def W_ORN_S (sf rd rn rm imm6 : Nat) : Nat := 0xaa2003e0 ||| (sf <<< 31) ||| rd ||| (rn <<< 5) ||| (rm <<< 16) ||| (imm6 <<< 10)
def W_LDR_R (sz rt base rm s s2 option : Nat) : Nat :=
  0x38600800 ||| (sz <<< 30) ||| (s <<< 23) ||| (rm <<< 16) ||| (option <<< 13) ||| (s2 <<< 12) ||| (base <<< 5) ||| rt
def W_STR_R (sz rt base rm s2 option : Nat) : Nat :=
  0x38200800 ||| (sz <<< 30) ||| (rm <<< 16) ||| (option <<< 13) ||| (s2 <<< 12) ||| (base <<< 5) ||| rt
/-- asm.h:575-592; ADRP is used with 0 only. -/
def W_ADRP (rd : Nat) : Nat := 0x90000000 ||| rd
def W_MRS (rt : Nat) (sysreg : Int) : Nat := 0xd5300000 ||| sh sysreg 5 ||| rt
def W_CSINC (sz rd rn rm cond : Nat) : Nat := 0x1a800400 ||| (sz <<< 31) ||| (rm <<< 16) ||| (cond <<< 12) ||| (rn <<< 5) ||| rd
def W_B (offset : Int) : Nat := 0x14000000 ||| low 26 offset
def W_BR (rn : Nat) : Nat := 0xd61f0000 ||| (rn <<< 5)
def W_BCC (cond : Nat) (offset : Int) : Nat := 0x54000000 ||| (low 19 offset <<< 5) ||| cond
def W_CBZ (sf rt : Nat) (offset : Int) : Nat := 0x34000000 ||| (sf <<< 31) ||| (low 19 offset <<< 5) ||| rt
def W_CBNZ (sf rt : Nat) (offset : Int) : Nat := 0x35000000 ||| (sf <<< 31) ||| (low 19 offset <<< 5) ||| rt
def W_BL (offset : Int) : Nat := 0x94000000 ||| low 26 offset
def W_BLR (rn : Nat) : Nat := 0xd63f0000 ||| (rn <<< 5)
def W_RET (rn : Nat) : Nat := 0xd65f0000 ||| (rn <<< 5)
def W_NOP : Nat := 0xd503201f
def W_SVC (imm : Int) : Nat := 0xd4000001 ||| sh imm 5
/-- asm.h:595-605 -/
def P_MOV (sz rd rs : Nat) : Nat := W_ORR_S sz rd 31 rs 0
def P_MOV_SP (sz rd rs : Nat) : Nat := W_ADD_I sz rd rs 0
def P_MUL (sz rd rn rm : Nat) : Nat := W_MADD sz rd rn rm 31
def P_CMP (sz rm rn : Nat) : Nat := W_SUBS_S sz 31 rm rn 0
def P_CMP_I (sz rd : Nat) (imm : Int) : Nat := W_SUBS_I sz 31 rd imm
def P_CMN (sz rn rm : Nat) : Nat := W_ADDS_S sz 31 rn rm 0
def P_CMN_I (sz rd : Nat) (imm : Int) : Nat := W_ADDS_I sz 31 rd imm
/-- `63 >> (1 - sz)` -/
def msb (sz : Nat) : Nat := 63 >>> (1 - sz)
def P_LSL_I (sz rd rn : Nat) (imm : Int) : Nat := W_UBFM sz rd sz rn ((-imm) % (msb sz + 1)) (msb sz - imm)
def P_LSR_I (sz rd rn : Nat) (imm : Int) : Nat := W_UBFM sz rd sz rn imm (msb sz)
def P_ASR_I (sz rd rn : Nat) (imm : Int) : Nat := W_SBFM sz rd sz rn imm (msb sz)
def P_CSET (sz rd cond : Nat) : Nat := W_CSINC sz rd 31 31 (cond ^^^ 1)
/-- asm.h:609-619 -/
def F_LDUR (b rt : Nat) (ofs : Int) (base : Nat) : Nat := 0xbc400000 ||| (b <<< 30) ||| (low 9 ofs <<< 12) ||| (base <<< 5) ||| rt
def F_LDR_UIMM (b rt : Nat) (ofs : Int) (base : Nat) : Nat :=
  0xbd400000 ||| (b <<< 30) ||| (low 12 ofs <<< 10) ||| (base <<< 5) ||| rt
def F_LDR (b rt : Nat) (ofs : Int) (base prepost : Nat) : Nat :=
  0xbc400000 ||| (b <<< 30) ||| (low 9 ofs <<< 12) ||| (prepost <<< 10) ||| (base <<< 5) ||| rt
def F_STUR (b rt : Nat) (ofs : Int) (base : Nat) : Nat := 0xbc000000 ||| (b <<< 30) ||| (low 9 ofs <<< 12) ||| (base <<< 5) ||| rt
def F_STR_UIMM (b rt : Nat) (ofs : Int) (base : Nat) : Nat :=
  0xbd000000 ||| (b <<< 30) ||| (low 12 ofs <<< 10) ||| (base <<< 5) ||| rt
def F_STR (b rt : Nat) (ofs : Int) (base prepost : Nat) : Nat :=
  0xbc000000 ||| (b <<< 30) ||| (low 9 ofs <<< 12) ||| (prepost <<< 10) ||| (base <<< 5) ||| rt
/-- `(ofs & ((1 << 10) - (1 << 3))) << 12` is bits 9-3 of the offset at bit 15. -/
def F_LDP (b rt ru base : Nat) (ofs : Int) (prepost : Nat) : Nat :=
  0x2c400000 ||| (b <<< 30) ||| (prepost <<< 23) ||| (low 7 (ofs / 8) <<< 15) ||| (ru <<< 10) ||| (base <<< 5) ||| rt
def F_STP (b rt ru base : Nat) (ofs : Int) (prepost : Nat) : Nat :=
  0x2c000000 ||| (b <<< 30) ||| (prepost <<< 23) ||| (low 7 (ofs / 8) <<< 15) ||| (ru <<< 10) ||| (base <<< 5) ||| rt
def F_LDR_R (sz rt base rm s2 option : Nat) : Nat :=
  0xbc700800 ||| (sz <<< 30) ||| (rm <<< 16) ||| (option <<< 13) ||| (s2 <<< 12) ||| (base <<< 5) ||| rt
def F_STR_R (sz rt base rm s2 option : Nat) : Nat :=
  0xbc300800 ||| (sz <<< 30) ||| (rm <<< 16) ||| (option <<< 13) ||| (s2 <<< 12) ||| (base <<< 5) ||| rt
/-- asm.h:621-643 -/
def FMOV_Z (sz rd rn : Nat) : Nat := 0x1e270000 ||| (sz <<< 31) ||| (sz <<< 22) ||| (rn <<< 5) ||| rd
def FMOV (sz rd rn : Nat) : Nat := 0x1e204000 ||| (sz <<< 22) ||| (rn <<< 5) ||| rd
def FMOV_I (sz rd : Nat) (imm8 : Int) : Nat := 0x1e201000 ||| (sz <<< 22) ||| (low 8 imm8 <<< 13) ||| rd
def FADD (sz rd rn rm : Nat) : Nat := 0x1e202800 ||| (sz <<< 22) ||| (rm <<< 16) ||| (rn <<< 5) ||| rd
def FSUB (sz rd rn rm : Nat) : Nat := 0x1e203800 ||| (sz <<< 22) ||| (rm <<< 16) ||| (rn <<< 5) ||| rd
def FMUL (sz rd rn rm : Nat) : Nat := 0x1e200800 ||| (sz <<< 22) ||| (rm <<< 16) ||| (rn <<< 5) ||| rd
def FDIV (sz rd rn rm : Nat) : Nat := 0x1e201800 ||| (sz <<< 22) ||| (rm <<< 16) ||| (rn <<< 5) ||| rd
def FCMP (sz rd rn : Nat) : Nat := 0x1e202000 ||| (sz <<< 22) ||| (rn <<< 16) ||| (rd <<< 5)
def FNEG (sz rd rn : Nat) : Nat := 0x1e214000 ||| (sz <<< 22) ||| (rn <<< 5) ||| rd
def FSQRT (sz rd rn : Nat) : Nat := 0x1e21c000 ||| (sz <<< 22) ||| (rn <<< 5) ||| rd
def SCVTF (dsz rt ssz rn : Nat) : Nat := 0x1e220000 ||| (dsz <<< 31) ||| (ssz <<< 22) ||| (rn <<< 5) ||| rt
def UCVTF (dsz rt ssz rn : Nat) : Nat := 0x1e230000 ||| (dsz <<< 31) ||| (ssz <<< 22) ||| (rn <<< 5) ||| rt
def FCVT (dsz rt rn : Nat) : Nat := 0x1e224000 ||| ((1 - dsz) <<< 22) ||| (dsz <<< 15) ||| (rn <<< 5) ||| rt
def FCVTZS (dsz rt ssz rn : Nat) : Nat := 0x1e380000 ||| (dsz <<< 31) ||| (ssz <<< 22) ||| (rn <<< 5) ||| rt
def FCVTZU (dsz rt ssz rn : Nat) : Nat := 0x1e390000 ||| (dsz <<< 31) ||| (ssz <<< 22) ||| (rn <<< 5) ||| rt
def FMADD (sz rd rn rm ra : Nat) : Nat := 0x1f000000 ||| (sz <<< 22) ||| (rm <<< 16) ||| (ra <<< 10) ||| (rn <<< 5) ||| rd
def FMSUB (sz rd rn rm ra : Nat) : Nat := 0x1f008000 ||| (sz <<< 22) ||| (rm <<< 16) ||| (ra <<< 10) ||| (rn <<< 5) ||| rd
def FNMSUB (sz rd rn rm ra : Nat) : Nat := 0x1f208000 ||| (sz <<< 22) ||| (rm <<< 16) ||| (ra <<< 10) ||| (rn <<< 5) ||| rd

/-! ### Instructions as the back end hands them over -/

/-- arm64_asm_raw_opcode_t (asm.h:9-93), the conditional branches together. -/
inductive Raw
  | MOV | MOVK | ADD | SUB | MUL | SDIV | UDIV | MADD | MSUB | AND | ORR | EOR | EON | CMP | CMN | LSL | LSR | ASR
  | SXTB | SXTH | SXTW | UXTB | UXTH | UXTW | LDRB | LDRH | LDR | LDRSB | LDRSH | LDRSW | STRB | STRH | STR | LDP | STP
  | ADRP | CSET | B | BR | BCC (c : Cond) | BL | BLR | RET | MRS | SVC | CBZ | CBNZ
  | FMOV | FADD | FSUB | FMUL | FDIV | FCMP | FNEG | FSQRT | SCVTF | UCVTF | FCVT | FCVTZS | FCVTZU | MVN
  | FMADD | FMSUB | FNMSUB | NOP
deriving DecidableEq, Repr

/-- arm64_asm_operand_t (asm.h:336-370); `mode` is `prepost`: 0 none, 1 pre, 2 post. -/
inductive Operand
  | reg (q : Bool) (r : R)
  | freg (d : Bool) (n : Nat)
  | imm (v : Int)
  | sym (off : Int)
  | ind (b : R) (off : Int) (mode : Nat) (isSym : Bool)
  | roff (b m : R) (scale : Int) (e : Nat)
  | cond (c : Cond)
  | shift (v : Int)
  | ext (o amt : Int)
deriving DecidableEq, Repr

structure Inst where
  raw : Raw
  ops : List Operand

/-- arm64_asm_cond_type (asm.h:297-315); also the distance of a conditional branch opcode from BEQ (asm.h:228-243). -/
def Cond.num : Cond → Nat
  | .eq => 0
  | .ne => 1
  | .hs => 2
  | .lo => 3
  | .mi => 4
  | .pl => 5
  | .vs => 6
  | .vc => 7
  | .hi => 8
  | .ls => 9
  | .ge => 10
  | .lt => 11
  | .gt => 12
  | .le => 13
  | .al => 14
  | .nv => 15

/-! ### Choosing the opcode -/

/-- asm.h:382-394 -/
def R32 : Nat := 1
def R64 : Nat := 2
def F32 : Nat := 4
def F64 : Nat := 8
def RSP : Nat := 16
def IMM : Nat := 64
def IND : Nat := 128
def ROI : Nat := 256
def SYM : Nat := 512
def CND : Nat := 1024
def SFT : Nat := 2048
def EXT : Nat := 4096

/-- match_operand_flags (opcode.c:928-982): which flag an operand answers to. -/
def Operand.flag : Operand → Nat
  | .reg false _ => R32
  | .reg true _ => R64
  | .freg false _ => F32
  | .freg true _ => F64
  | .sym _ => SYM
  | .imm _ => IMM
  | .ind .. => IND
  | .roff .. => ROI
  | .cond _ => CND
  | .shift _ => SFT
  | .ext .. => EXT

/-- arm64_asm_opcode_t (asm.h:180-275), as far as it differs from the raw opcode. -/
inductive Op
  | same | r | i | f | fi
deriving DecidableEq, Repr

/-- arm64_opcode_map (opcode.c:731-926); there is no entry for LDRSW. -/
def table : Raw → List (Op × List Nat)
  | .MOV => [(.same, [R32, R32]), (.same, [R64 ||| RSP, R64 ||| RSP]), (.same, [R32 ||| R64, IMM])]
  | .MOVK => [(.same, [R32 ||| R64, IMM, SFT])]
  | .ADD | .SUB =>
    [(.r, [R32, R32, R32]), (.r, [R32, R32, R32, EXT]), (.i, [R32, R32, IMM]), (.i, [R32, R32, SYM]), (.r, [R64, R64, R64]),
     (.r, [R64, R64, R64, EXT]), (.r, [R64 ||| RSP, R64 ||| RSP, R64]), (.i, [R64 ||| RSP, R64 ||| RSP, IMM]),
     (.i, [R64 ||| RSP, R64 ||| RSP, SYM])]
  | .MUL | .SDIV | .UDIV | .AND | .ORR | .EOR | .EON => [(.same, [R32, R32, R32]), (.same, [R64, R64, R64])]
  | .MADD | .MSUB => [(.same, [R32, R32, R32, R32]), (.same, [R64, R64, R64, R64])]
  | .CMP | .CMN => [(.r, [R32, R32]), (.r, [R64, R64]), (.i, [R32 ||| R64, IMM])]
  | .LSL | .LSR | .ASR => [(.r, [R32, R32, R32]), (.i, [R32, R32, IMM]), (.r, [R64, R64, R64]), (.i, [R64, R64, IMM])]
  | .SXTB | .SXTH | .UXTB | .UXTH => [(.same, [R32 ||| R64, R32])]
  | .SXTW | .UXTW => [(.same, [R64, R32])]
  | .LDRB | .LDRH | .LDRSB | .LDRSH => [(.same, [R32 ||| R64, IND ||| ROI])]
  | .LDR | .STR => [(.same, [R32 ||| R64, IND ||| ROI]), (.f, [F32 ||| F64, IND ||| ROI])]
  | .LDRSW => []
  | .STRB | .STRH => [(.same, [R32, IND ||| ROI])]
  | .LDP | .STP => [(.same, [R32, R32, IND]), (.same, [R64, R64, IND]), (.f, [F32, F32, IND]), (.f, [F64, F64, IND])]
  | .ADRP => [(.same, [R64, SYM])]
  | .CSET => [(.same, [R32 ||| R64, CND])]
  | .B | .BL | .BCC _ => [(.same, [SYM ||| IMM])]
  | .BR | .BLR => [(.same, [R64])]
  | .RET | .NOP => [(.same, [])]
  | .SVC => [(.same, [IMM])]
  | .CBZ | .CBNZ => [(.same, [R32, SYM ||| IMM]), (.same, [R64, SYM ||| IMM])]
  | .MRS => [(.same, [R64, IMM])]
  | .FMOV => [(.f, [F32, F32 ||| R32]), (.f, [F64, F64 ||| R64]), (.fi, [F32, IMM]), (.fi, [F64, IMM])]
  | .FADD | .FSUB | .FMUL | .FDIV => [(.same, [F32, F32, F32]), (.same, [F64, F64, F64])]
  | .FCMP | .FNEG | .FSQRT => [(.same, [F32, F32]), (.same, [F64, F64])]
  | .SCVTF | .UCVTF => [(.same, [F32 ||| F64, R32 ||| R64])]
  | .FCVT => [(.same, [F64, F32]), (.same, [F32, F64])]
  | .FCVTZS | .FCVTZU => [(.same, [R32 ||| R64, F32 ||| F64])]
  | .MVN => [(.same, [R32, R32]), (.same, [R64, R64])]
  | .FMADD | .FMSUB | .FNMSUB => [(.same, [F32, F32, F32, F32]), (.same, [F64, F64, F64, F64])]

/-- Every operand answers to its flags, and there are as many (opcode.c:990-1014). -/
def fits : List Nat → List Operand → Bool
  | [], [] => true
  | f :: fs, o :: os => (f &&& o.flag != 0) && fits fs os
  | _, _ => false

/-- arm64_match_opcode (opcode.c:984-1021): the first entry that fits. -/
def matchOp (i : Inst) : Option Op := ((table i.raw).find? (fun e => fits e.2 i.ops)).map (·.1)

/-! ### The handlers -/

/-- asm_mov (opcode.c:22-52) -/
def asmMov : List Operand → Option Nat
  | [.reg q d, .reg q' a] =>
    if q ≠ q' then none
    else if d.isSp || a.isSp then some (P_MOV_SP (bit q) d.num a.num)
    else some (P_MOV (bit q) d.num a.num)
  | [.reg q d, .imm v] => if 0 ≤ v then some (W_MOVZ (bit q) d.num v 0) else some (W_MOVN (bit q) d.num (-v - 1) 0)
  | _ => none

/-- asm_movk (opcode.c:54-63) -/
def asmMovk : List Operand → Option Nat
  | [.reg q d, .imm v, .shift k] => if k % 16 = 0 then some (W_MOVK (bit q) d.num v (k / 16)) else none
  | _ => none

/-- The cases of ADD_R and SUB_R in asm_3r (opcode.c:74-111). -/
def asmAddR (sub q : Bool) (d a b : R) (e : Option (Int × Int)) : Nat :=
  match e with
  | none =>
    if !d.isSp && !a.isSp then
      (if sub then W_SUB_S (bit q) d.num a.num b.num 0 0 else W_ADD_S (bit q) d.num a.num b.num 0 0)
    else
      (if sub then W_SUB_E (bit q) d.num a.num b.num 3 0 else W_ADD_E (bit q) d.num a.num b.num 3 0)
  | some (o, amt) =>
    if o < 8 then (if sub then W_SUB_E (bit q) d.num a.num b.num o amt else W_ADD_E (bit q) d.num a.num b.num o amt)
    else (if sub then W_SUB_S (bit q) d.num a.num b.num (low 2 o) amt else W_ADD_S (bit q) d.num a.num b.num (low 2 o) amt)

/-- asm_3r (opcode.c:65-145) -/
def asm3r (r : Raw) : List Operand → Option Nat
  | .reg q d :: .reg q2 a :: .reg q3 b :: rest =>
    if q ≠ q2 ∨ q ≠ q3 then none else
    match r, rest with
    | .ADD, [] => some (asmAddR false q d a b none)
    | .ADD, [.ext o amt] => some (asmAddR false q d a b (some (o, amt)))
    | .SUB, [] => some (asmAddR true q d a b none)
    | .SUB, [.ext o amt] => some (asmAddR true q d a b (some (o, amt)))
    | .MUL, _ => some (P_MUL (bit q) d.num a.num b.num)
    | .SDIV, _ => some (W_SDIV (bit q) d.num a.num b.num)
    | .UDIV, _ => some (W_UDIV (bit q) d.num a.num b.num)
    | .AND, _ => some (W_AND_S (bit q) d.num a.num b.num 0)
    | .ORR, _ => some (W_ORR_S (bit q) d.num a.num b.num 0)
    | .EOR, _ => some (W_EOR_S (bit q) d.num a.num b.num 0)
    | .EON, _ => some (W_EON_S (bit q) d.num a.num b.num 0)
    | .LSL, _ => some (W_LSLV (bit q) d.num a.num b.num)
    | .LSR, _ => some (W_LSRV (bit q) d.num a.num b.num)
    | .ASR, _ => some (W_ASRV (bit q) d.num a.num b.num)
    | _, _ => none
  | _ => none

/-- The switch of asm_2ri (opcode.c:161-178). -/
def asm2riWord (r : Raw) (q : Bool) (d a : R) (v : Int) : Option Nat :=
  match r with
  | .ADD => some (if 0 ≤ v then W_ADD_I (bit q) d.num a.num v else W_SUB_I (bit q) d.num a.num (-v))
  | .SUB => some (if 0 ≤ v then W_SUB_I (bit q) d.num a.num v else W_ADD_I (bit q) d.num a.num (-v))
  | .LSL => some (P_LSL_I (bit q) d.num a.num v)
  | .LSR => some (P_LSR_I (bit q) d.num a.num v)
  | .ASR => some (P_ASR_I (bit q) d.num a.num v)
  | _ => none

/-- asm_2ri (opcode.c:147-179) -/
def asm2ri (r : Raw) : List Operand → Option Nat
  | [.reg q d, .reg q2 a, .imm v] =>
    if q ≠ q2 then none else if v < -4095 ∨ 4095 < v then none else asm2riWord r q d a v
  | [.reg q d, .reg q2 a, .sym _] => if q ≠ q2 then none else asm2riWord r q d a 0
  | _ => none

/-- asm_2r (opcode.c:181-209) -/
def asm2r (r : Raw) : List Operand → Option Nat
  | [.reg q d, .reg q2 a] =>
    match r with
    | .CMP => some (P_CMP (bit q) d.num a.num)
    | .CMN => some (P_CMN (bit q) d.num a.num)
    | .SXTB => if q2 then none else some (W_SBFM (bit q) d.num (bit q) a.num 0 (((8 <<< 0 : Nat) : Int) - 1))
    | .SXTH => if q2 then none else some (W_SBFM (bit q) d.num (bit q) a.num 0 (((8 <<< 1 : Nat) : Int) - 1))
    | .SXTW => if q2 then none else some (W_SBFM (bit q) d.num (bit q) a.num 0 (((8 <<< 2 : Nat) : Int) - 1))
    | .UXTB => if q2 then none else some (W_UBFM 0 d.num 0 a.num 0 (((8 <<< 0 : Nat) : Int) - 1))
    | .UXTH => if q2 then none else some (W_UBFM 0 d.num 0 a.num 0 (((8 <<< 1 : Nat) : Int) - 1))
    | .UXTW => some (P_MOV 0 d.num a.num)
    | _ => none
  | _ => none

/-- asm_ri (opcode.c:211-230) -/
def asmRi (r : Raw) : List Operand → Option Nat
  | [.reg q d, .imm v] =>
    if v < 0 ∨ 4095 < v then none else
    match r with
    | .CMP => some (P_CMP_I (bit q) d.num v)
    | .CMN => some (P_CMN_I (bit q) d.num v)
    | _ => none
  | _ => none

/-- asm_4r (opcode.c:232-250) -/
def asm4r (r : Raw) : List Operand → Option Nat
  | [.reg q d, .reg q2 a, .reg q3 b, .reg q4 c] =>
    if q ≠ q2 ∨ q ≠ q3 ∨ q ≠ q4 then none else
    match r with
    | .MADD => some (W_MADD (bit q) d.num a.num b.num c.num)
    | .MSUB => some (W_MSUB (bit q) d.num a.num b.num c.num)
    | _ => none
  | _ => none

/-- pre_post_map (opcode.c:7) -/
def prePost : Nat → Nat
  | 0 => 2
  | 1 => 3
  | _ => 1

/-- `inst->opcode - LDRB`, made into a size and a sign, and `inst->opcode - STRB` (opcode.c:288-293, 321; asm.h:213-221). -/
def ldNum : Raw → Option (Nat × Nat)
  | .LDRB => some (0, 0)
  | .LDRH => some (1, 0)
  | .LDR => some (2, 0)
  | .LDRSB => some (0, 1)
  | .LDRSH => some (1, 1)
  | _ => none
def stNum : Raw → Option Nat
  | .STRB => some 0
  | .STRH => some 1
  | .STR => some 2
  | _ => none

/-- `opts` (opcode.c:337, 599) -/
def optOf : Nat → Nat
  | 0 => 3
  | 1 => 6
  | 2 => 2
  | _ => 3

/-- The offset as the scaled forms take it (opcode.c:296-300, 315-319). -/
def scaled (r : Raw) (sz : Nat) (off : Int) : Int :=
  match r with
  | .LDR | .STR => off / 2 ^ (2 + sz)
  | .LDRH | .LDRSH | .STRH => off / 2
  | _ => off

/-- asm_ldrstr (opcode.c:252-387). With a symbol, `inst->opcode - LDRB` is 6, 7, 8 for the stores, of
    which 30 more bits leave the last two. -/
def asmLdrstr (r : Raw) : List Operand → Option Nat
  | [.reg q t, .ind b off mode isSym] =>
    if isSym then
      match ldNum r, stNum r with
      | some (k, s), _ => some (W_LDR_UIMM (k ||| bit q) s t.num 0 b.num)
      | none, some k => some (W_LDR_UIMM (((k + 3) ||| bit q) % 4) 1 t.num 0 b.num)
      | none, none => none
    else if off ≤ 4095 ∧ -4096 ≤ off then
      match ldNum r, stNum r with
      | some (k, s), _ =>
        if mode = 0 then
          if 0 ≤ off then some (W_LDR_UIMM (k ||| bit q) s t.num (scaled r (bit q) off) b.num)
          else some (W_LDUR (k ||| bit q) s t.num off b.num)
        else some (W_LDR (k ||| bit q) s t.num off b.num (prePost mode))
      | none, some k =>
        if mode = 0 then
          if 0 ≤ off then some (W_STR_UIMM (k ||| bit q) t.num (scaled r (bit q) off) b.num)
          else some (W_STUR (k ||| bit q) t.num off b.num)
        else some (W_STR (k ||| bit q) t.num off b.num (prePost mode))
      | none, none => none
    else none
  | [.reg q t, .roff b m scale e] =>
    if scale ≠ 0 then none else
    match ldNum r, stNum r with
    | some (k, s), _ => some (W_LDR_R (k ||| bit q) t.num b.num m.num s 0 (optOf e))
    | none, some k => some (W_STR_R (k ||| bit q) t.num b.num m.num 0 (optOf e))
    | none, none => none
  | _ => none

/-- asm_ldpstp (opcode.c:389-408) -/
def asmLdpstp (r : Raw) : List Operand → Option Nat
  | [.reg q t, .reg q2 u, .ind b off mode _] =>
    if q ≠ q2 then none else
    if off < 512 ∧ -512 ≤ off then
      match r with
      | .LDP => some (W_LDP (bit q) t.num u.num off b.num (prePost mode))
      | .STP => some (W_STP (bit q) t.num u.num off b.num (prePost mode))
      | _ => none
    else none
  | _ => none

/-- The distance of a branch (opcode.c:425-438 and others): the offset of a symbol, or a number, over 4, rounded towards zero. -/
def target : Operand → Option Int
  | .sym off => some (off.tdiv 4)
  | .imm off => some (off.tdiv 4)
  | _ => none

/-- asm_b, asm_bl, asm_bcc (opcode.c:425-460, 470-486) -/
def asmB (r : Raw) : List Operand → Option Nat
  | [o] =>
    match target o, r with
    | some off, .B => some (W_B off)
    | some off, .BL => some (W_BL off)
    | some off, .BCC c => some (W_BCC c.num off)
    | _, _ => none
  | _ => none

/-- asm_cbz, asm_cbnz (opcode.c:488-524) -/
def asmCb (r : Raw) : List Operand → Option Nat
  | [.reg q t, o] =>
    match target o, r with
    | some off, .CBZ => some (W_CBZ (bit q) t.num off)
    | some off, .CBNZ => some (W_CBNZ (bit q) t.num off)
    | _, _ => none
  | _ => none

/-- asm_f_ldrstr (opcode.c:558-614) -/
def asmFLdrstr (r : Raw) : List Operand → Option Nat
  | [.freg d t, .ind b off mode _] =>
    if off < 512 ∧ -512 ≤ off then
      match r with
      | .LDR =>
        if mode = 0 then
          if 0 ≤ off then some (F_LDR_UIMM (bit d) t (off / 2 ^ (2 + bit d)) b.num) else some (F_LDUR (bit d) t off b.num)
        else some (F_LDR (bit d) t off b.num (prePost mode))
      | .STR =>
        if mode = 0 then
          if 0 ≤ off then some (F_STR_UIMM (bit d) t (off / 2 ^ (2 + bit d)) b.num) else some (F_STUR (bit d) t off b.num)
        else some (F_STR (bit d) t off b.num (prePost mode))
      | _ => none
    else none
  | [.freg d t, .roff b m _ e] =>
    match r with
    | .LDR => some (F_LDR_R (bit d) t b.num m.num (bit (decide (0 < e))) (optOf e))
    | .STR => some (F_STR_R (bit d) t b.num m.num (bit (decide (0 < e))) (optOf e))
    | _ => none
  | _ => none

/-- asm_f_ldpstp (opcode.c:616-635) -/
def asmFLdpstp (r : Raw) : List Operand → Option Nat
  | [.freg d t, .freg _ u, .ind b off mode _] =>
    if off < 512 ∧ -512 ≤ off then
      match r with
      | .LDP => some (F_LDP (bit d) t u b.num off (prePost mode))
      | .STP => some (F_STP (bit d) t u b.num off (prePost mode))
      | _ => none
    else none
  | _ => none

/-- asm_f_3r (opcode.c:637-656) -/
def asmF3r (r : Raw) : List Operand → Option Nat
  | [.freg q d, .freg _ a, .freg _ b] =>
    match r with
    | .FADD => some (FADD (bit q) d a b)
    | .FSUB => some (FSUB (bit q) d a b)
    | .FMUL => some (FMUL (bit q) d a b)
    | .FDIV => some (FDIV (bit q) d a b)
    | _ => none
  | _ => none

/-- asm_f_4r (opcode.c:658-676) -/
def asmF4r (r : Raw) : List Operand → Option Nat
  | [.freg q d, .freg _ a, .freg _ b, .freg _ c] =>
    match r with
    | .FMADD => some (FMADD (bit q) d a b c)
    | .FMSUB => some (FMSUB (bit q) d a b c)
    | .FNMSUB => some (FNMSUB (bit q) d a b c)
    | _ => none
  | _ => none

/-- asm_f_2r (opcode.c:678-710) -/
def asmF2r (r : Raw) : List Operand → Option Nat
  | [.freg q d, .freg _ a] =>
    match r with
    | .FMOV => some (FMOV (bit q) d a)
    | .FCMP => some (FCMP (bit q) d a)
    | .FNEG => some (FNEG (bit q) d a)
    | .FSQRT => some (FSQRT (bit q) d a)
    | .FCVT => some (FCVT (bit q) d a)
    | _ => none
  | [.freg q d, .reg q2 a] =>
    match r with
    | .FMOV => some (FMOV_Z (bit q) d a.num)
    | .SCVTF => some (SCVTF (bit q2) d (bit q) a.num)
    | .UCVTF => some (UCVTF (bit q2) d (bit q) a.num)
    | _ => none
  | [.reg q d, .freg q2 a] =>
    match r with
    | .FCVTZS => some (FCVTZS (bit q) d.num (bit q2) a)
    | .FCVTZU => some (FCVTZU (bit q) d.num (bit q2) a)
    | _ => none
  | _ => none

/-- The handlers that need no table of their own: asm_adrp, asm_cset, asm_br, asm_blr, asm_ret, asm_svc, asm_mrs, asm_mvn, asm_nop
    (opcode.c:410-423, 462-468, 527-556, 721-728, 17-19). -/
def asmAdrp : List Operand → Option Nat
  | .reg q d :: _ => if q then some (W_ADRP d.num) else none
  | _ => none
def asmCset : List Operand → Option Nat
  | [.reg q d, .cond c] => some (P_CSET (bit q) d.num c.num)
  | _ => none
def asmBr (link : Bool) : List Operand → Option Nat
  | .reg q a :: _ => if q then some (if link then W_BLR a.num else W_BR a.num) else none
  | _ => none
def asmSvc : List Operand → Option Nat
  | [.imm v] => some (W_SVC v)
  | _ => none
def asmMrs : List Operand → Option Nat
  | [.reg q d, .imm v] => if q then some (W_MRS d.num v) else none
  | _ => none
def asmMvn : List Operand → Option Nat
  | [.reg q d, .reg _ a] => some (W_ORN_S (bit q) d.num 31 a.num 0)
  | _ => none
/-- asm_fmov_i (opcode.c:712-719) -/
def asmFmovI : List Operand → Option Nat
  | [.freg q d, .imm v] => some (FMOV_I (bit q) d v)
  | _ => none

/-- arm64_opcode_handle_table (opcode.c:1025-1120) -/
def handle (r : Raw) (op : Op) (l : List Operand) : Option Nat :=
  match r, op with
  | .MOV, _ => asmMov l
  | .MOVK, _ => asmMovk l
  | .ADD, .i | .SUB, .i | .LSL, .i | .LSR, .i | .ASR, .i => asm2ri r l
  | .ADD, _ | .SUB, _ | .LSL, _ | .LSR, _ | .ASR, _ => asm3r r l
  | .MUL, _ | .SDIV, _ | .UDIV, _ | .AND, _ | .ORR, _ | .EOR, _ | .EON, _ => asm3r r l
  | .MADD, _ | .MSUB, _ => asm4r r l
  | .CMP, .i | .CMN, .i => asmRi r l
  | .CMP, _ | .CMN, _ | .SXTB, _ | .SXTH, _ | .SXTW, _ | .UXTB, _ | .UXTH, _ | .UXTW, _ => asm2r r l
  | .LDR, .f | .STR, .f => asmFLdrstr r l
  | .LDRB, _ | .LDRH, _ | .LDR, _ | .LDRSB, _ | .LDRSH, _ | .LDRSW, _ | .STRB, _ | .STRH, _ | .STR, _ => asmLdrstr r l
  | .LDP, .f | .STP, .f => asmFLdpstp r l
  | .LDP, _ | .STP, _ => asmLdpstp r l
  | .ADRP, _ => asmAdrp l
  | .CSET, _ => asmCset l
  | .B, _ | .BL, _ | .BCC _, _ => asmB r l
  | .CBZ, _ | .CBNZ, _ => asmCb r l
  | .BR, _ => asmBr false l
  | .BLR, _ => asmBr true l
  | .RET, _ => some (W_RET 30)
  | .MRS, _ => asmMrs l
  | .SVC, _ => asmSvc l
  | .FMOV, .fi => asmFmovI l
  | .FMOV, _ | .FCMP, _ | .FNEG, _ | .FSQRT, _ | .SCVTF, _ | .UCVTF, _ | .FCVT, _ | .FCVTZS, _ | .FCVTZU, _ => asmF2r r l
  | .FADD, _ | .FSUB, _ | .FMUL, _ | .FDIV, _ => asmF3r r l
  | .MVN, _ => asmMvn l
  | .FMADD, _ | .FMSUB, _ | .FNMSUB, _ => asmF4r r l
  | .NOP, _ => some W_NOP

/-- arm64_asm_inst_encoding (opcode.c:1122-1134) -/
def encode (i : Inst) : Option Nat :=
  match matchOp i with
  | none => none
  | some op =>
    match handle i.raw op i.ops with
    | some w => if w = 0 then none else some w
    | none => none

/-! ### The assembly language in the form the encoder takes -/

def Alu.raw : Alu → Raw
  | .add => .ADD
  | .sub => .SUB
  | .mul => .MUL
  | .sdiv => .SDIV
  | .udiv => .UDIV
  | .and => .AND
  | .orr => .ORR
  | .eor => .EOR
  | .eon => .EON
  | .lsl => .LSL
  | .lsr => .LSR
  | .asr => .ASR

def AluI.raw : AluI → Raw
  | .add => .ADD
  | .sub => .SUB
  | .lsl => .LSL
  | .lsr => .LSR
  | .asr => .ASR

def Ext.raw : Ext → Raw
  | .sb => .SXTB
  | .sh => .SXTH
  | .sw => .SXTW
  | .ub => .UXTB
  | .uh => .UXTH
  | .uw => .UXTW

def Ld.raw : Ld → Raw
  | .b => .LDRB
  | .h => .LDRH
  | .w => .LDR
  | .sb => .LDRSB
  | .sh => .LDRSH

def Sd.raw : Sd → Raw
  | .b => .STRB
  | .h => .STRH
  | .w => .STR

def F2.raw : F2 → Raw
  | .add => .FADD
  | .sub => .FSUB
  | .mul => .FMUL
  | .div => .FDIV

def F3.raw : F3 → Raw
  | .madd => .FMADD
  | .msub => .FMSUB
  | .nmsub => .FNMSUB

/-- ARM64_INDIRECT, ARM64_INDIRECT_SYM (asm.h:454-477); a register offset has no scale. -/
def Addr.op : Addr → Operand
  | .off b o => .ind b o 0 false
  | .pre b o => .ind b o 1 false
  | .post b o => .ind b o 2 false
  | .idx b m e => .roff b m 0 e
  | .sym b => .ind b 0 0 true

def dest (label : Bool) (off : Int) : Operand := if label then .sym off else .imm off

/-- The structure built for an instruction (ARM64_INST, asm.h:511-527). -/
def instOf : Req → Inst
  | .mov q d a => ⟨.MOV, [.reg q d, .reg q a]⟩
  | .movi q d v => ⟨.MOV, [.reg q d, .imm v]⟩
  | .movk q d v sh => ⟨.MOVK, [.reg q d, .imm v, .shift sh]⟩
  | .alu op q d a b => ⟨op.raw, [.reg q d, .reg q a, .reg q b]⟩
  | .aluExt sub q d a b o amt => ⟨if sub then .SUB else .ADD, [.reg q d, .reg q a, .reg q b, .ext o amt]⟩
  | .alui op q d a v => ⟨op.raw, [.reg q d, .reg q a, .imm v]⟩
  | .aluSym sub q d a => ⟨if sub then .SUB else .ADD, [.reg q d, .reg q a, .sym 0]⟩
  | .cmp q a b => ⟨.CMP, [.reg q a, .reg q b]⟩
  | .cmn q a b => ⟨.CMN, [.reg q a, .reg q b]⟩
  | .cmpi q a v => ⟨.CMP, [.reg q a, .imm v]⟩
  | .cmni q a v => ⟨.CMN, [.reg q a, .imm v]⟩
  | .ext k q d a => ⟨k.raw, [.reg q d, .reg false a]⟩
  | .madd q d a b c => ⟨.MADD, [.reg q d, .reg q a, .reg q b, .reg q c]⟩
  | .msub q d a b c => ⟨.MSUB, [.reg q d, .reg q a, .reg q b, .reg q c]⟩
  | .mvn q d a => ⟨.MVN, [.reg q d, .reg q a]⟩
  | .ldr k q t a => ⟨k.raw, [.reg q t, a.op]⟩
  | .str k q t a => ⟨k.raw, [.reg q t, a.op]⟩
  | .ldp q t u a => ⟨.LDP, [.reg q t, .reg q u, a.op]⟩
  | .stp q t u a => ⟨.STP, [.reg q t, .reg q u, a.op]⟩
  | .adrp d => ⟨.ADRP, [.reg true d, .sym 0]⟩
  | .cset q d c => ⟨.CSET, [.reg q d, .cond c]⟩
  | .b label off => ⟨.B, [dest label off]⟩
  | .bl label off => ⟨.BL, [dest label off]⟩
  | .bcc c label off => ⟨.BCC c, [dest label off]⟩
  | .cbz q t label off => ⟨.CBZ, [.reg q t, dest label off]⟩
  | .cbnz q t label off => ⟨.CBNZ, [.reg q t, dest label off]⟩
  | .br a => ⟨.BR, [.reg true a]⟩
  | .blr a => ⟨.BLR, [.reg true a]⟩
  | .ret => ⟨.RET, []⟩
  | .svc v => ⟨.SVC, [.imm v]⟩
  | .mrs d v => ⟨.MRS, [.reg true d, .imm v]⟩
  | .nop => ⟨.NOP, []⟩
  | .fldr dbl t a => ⟨.LDR, [.freg dbl t, a.op]⟩
  | .fstr dbl t a => ⟨.STR, [.freg dbl t, a.op]⟩
  | .fldp dbl t u a => ⟨.LDP, [.freg dbl t, .freg dbl u, a.op]⟩
  | .fstp dbl t u a => ⟨.STP, [.freg dbl t, .freg dbl u, a.op]⟩
  | .fmov dbl d a => ⟨.FMOV, [.freg dbl d, .freg dbl a]⟩
  | .fmovx q d a => ⟨.FMOV, [.freg q d, .reg q a]⟩
  | .fmovi dbl d v => ⟨.FMOV, [.freg dbl d, .imm v]⟩
  | .farith op dbl d a b => ⟨op.raw, [.freg dbl d, .freg dbl a, .freg dbl b]⟩
  | .fma op dbl d a b c => ⟨op.raw, [.freg dbl d, .freg dbl a, .freg dbl b, .freg dbl c]⟩
  | .fcmp dbl a b => ⟨.FCMP, [.freg dbl a, .freg dbl b]⟩
  | .fneg dbl d a => ⟨.FNEG, [.freg dbl d, .freg dbl a]⟩
  | .fsqrt dbl d a => ⟨.FSQRT, [.freg dbl d, .freg dbl a]⟩
  | .fcvt to d a => ⟨.FCVT, [.freg to d, .freg (!to) a]⟩
  | .cvtf signed q dbl d a => ⟨if signed then .SCVTF else .UCVTF, [.freg dbl d, .reg q a]⟩
  | .cvtz signed q dbl d a => ⟨if signed then .FCVTZS else .FCVTZU, [.reg q d, .freg dbl a]⟩

end Nature.Arm64
