import Verif.Riscv.Spec
/-
The riscv64 encoder: src/binary/encoding/riscv64/opcode.c and opcode.h.

Simplified: a request has its operands already told apart, so `riscv64_match_opcode` (opcode.c:1107-1144), which picks the
opcode by name and kinds of operands, is left out.  Expressions on `int` that C leaves undefined when a field reaches bit 31
(for example `0x51 << 25`) are taken to wrap, as compilers do.  `la`, `luis` and `addis`, whose numbers the linker fills in, are
left out.
-/
namespace Nature.Riscv

/-- opcode.h:38 `EXTRACT_IMM`: shifting right is arithmetic. -/
def ext (v : Int) (t b : Nat) : Nat := (v / 2 ^ b % 2 ^ (t - b + 1)).toNat

/-- opcode.h:41-46. -/
def rtype (f7 rs2 rs1 f3 rd op : Nat) : Nat := (f7 <<< 25) ||| (rs2 <<< 20) ||| (rs1 <<< 15) ||| (f3 <<< 12) ||| (rd <<< 7) ||| op
def itype (v : Int) (rs1 f3 rd op : Nat) : Nat := (ext v 11 0 <<< 20) ||| (rs1 <<< 15) ||| (f3 <<< 12) ||| (rd <<< 7) ||| op
def stype (v : Int) (rs2 rs1 f3 op : Nat) : Nat :=
  (ext v 11 5 <<< 25) ||| (rs2 <<< 20) ||| (rs1 <<< 15) ||| (f3 <<< 12) ||| (ext v 4 0 <<< 7) ||| op
def utype (v : Int) (rd op : Nat) : Nat := (ext v 31 12 <<< 12) ||| (rd <<< 7) ||| op

/-- opcode.h:262-268 `SWIZZLE_BXX`, `SWIZZLE_JAL`. -/
def swizzleB (v : Int) : Nat := (ext v 12 12 <<< 31) ||| (ext v 10 5 <<< 25) ||| (ext v 4 1 <<< 8) ||| (ext v 11 11 <<< 7)
def swizzleJ (v : Int) : Nat := (ext v 20 20 <<< 31) ||| (ext v 10 1 <<< 21) ||| (ext v 11 11 <<< 20) ||| (ext v 19 12 <<< 12)

/-- opcode.h:6-32: `MAKE_CODE16`, `MAKE_CODE32`, little endian. -/
def c16 (v : Nat) : List Nat := [v % 256, v / 256 % 256]
def c32 (v : Nat) : List Nat := [v % 256, v / 256 % 256, v / 65536 % 256, v / 16777216 % 256]

/-- asm.h `is_rvc_reg`, opcode.h:271-272; and opcode.c:170-192. -/
def rvc (r : Nat) : Bool := decide (8 ≤ r ∧ r ≤ 15)
def isIm6 (v : Int) : Bool := decide (v ≤ 31 ∧ -32 ≤ v)
def isUim6 (v : Int) : Bool := decide (0 ≤ v ∧ v ≤ 63)
def isIm12 (v : Int) : Bool := decide (v ≤ 2047 ∧ -2048 ≤ v)
def isIm32 (v : Int) : Bool := decide (v ≤ 2147483647 ∧ -2147483648 ≤ v)

/-! opcode.h:157-200: compressed instructions.  `to_rvc_reg` subtracts 8. -/

def cMV (d s : Nat) : List Nat := c16 (0x8002 ||| (d <<< 7) ||| (s <<< 2))
def cLI (d : Nat) (v : Int) : List Nat := c16 (0x4001 ||| (ext v 5 5 <<< 12) ||| (d <<< 7) ||| (ext v 4 0 <<< 2))
def cLUI (d : Nat) (v : Int) : List Nat := c16 (0x6001 ||| (ext v 17 17 <<< 12) ||| (d <<< 7) ||| (ext v 16 12 <<< 2))
def cADD (d s : Nat) : List Nat := c16 (0x9002 ||| (d <<< 7) ||| (s <<< 2))
def cADDW (d s : Nat) : List Nat := c16 (0x9c21 ||| ((d - 8) <<< 7) ||| ((s - 8) <<< 2))
def cADDI (d : Nat) (v : Int) : List Nat := c16 (0x0001 ||| (ext v 5 5 <<< 12) ||| (d <<< 7) ||| (ext v 4 0 <<< 2))
def cADDIW (d : Nat) (v : Int) : List Nat := c16 (0x2001 ||| (ext v 5 5 <<< 12) ||| (d <<< 7) ||| (ext v 4 0 <<< 2))
def cADDI16SP (v : Int) : List Nat :=
  c16 (0x6101 ||| (ext v 9 9 <<< 12) ||| (ext v 4 4 <<< 6) ||| (ext v 6 6 <<< 5) ||| (ext v 8 7 <<< 3) ||| (ext v 5 5 <<< 2))
def cSUB (d s : Nat) : List Nat := c16 (0x8c01 ||| ((d - 8) <<< 7) ||| ((s - 8) <<< 2))
def cSUBW (d s : Nat) : List Nat := c16 (0x9c01 ||| ((d - 8) <<< 7) ||| ((s - 8) <<< 2))
def cAND (d s : Nat) : List Nat := c16 (0x8c61 ||| ((d - 8) <<< 7) ||| ((s - 8) <<< 2))
def cANDI (d : Nat) (v : Int) : List Nat := c16 (0x8801 ||| (ext v 5 5 <<< 12) ||| ((d - 8) <<< 7) ||| (ext v 4 0 <<< 2))
def cOR (d s : Nat) : List Nat := c16 (0x8c41 ||| ((d - 8) <<< 7) ||| ((s - 8) <<< 2))
def cXOR (d s : Nat) : List Nat := c16 (0x8c21 ||| ((d - 8) <<< 7) ||| ((s - 8) <<< 2))
def cSLLI (d : Nat) (v : Int) : List Nat := c16 (0x0002 ||| (ext v 5 5 <<< 12) ||| (d <<< 7) ||| (ext v 4 0 <<< 2))
def cSRLI (d : Nat) (v : Int) : List Nat := c16 (0x8001 ||| (ext v 5 5 <<< 12) ||| ((d - 8) <<< 7) ||| (ext v 4 0 <<< 2))
def cSRAI (d : Nat) (v : Int) : List Nat := c16 (0x8401 ||| (ext v 5 5 <<< 12) ||| ((d - 8) <<< 7) ||| (ext v 4 0 <<< 2))
def cLW (d : Nat) (v : Int) (a : Nat) : List Nat :=
  c16 (0x4000 ||| (ext v 5 3 <<< 10) ||| ((a - 8) <<< 7) ||| (ext v 2 2 <<< 6) ||| (ext v 6 6 <<< 5) ||| ((d - 8) <<< 2))
def cLD (d : Nat) (v : Int) (a : Nat) : List Nat :=
  c16 (0x6000 ||| (ext v 5 3 <<< 10) ||| ((a - 8) <<< 7) ||| (ext v 7 6 <<< 5) ||| ((d - 8) <<< 2))
def cSW (s : Nat) (v : Int) (a : Nat) : List Nat :=
  c16 (0xc000 ||| (ext v 5 3 <<< 10) ||| ((a - 8) <<< 7) ||| (ext v 7 6 <<< 5) ||| ((s - 8) <<< 2))
def cSD (s : Nat) (v : Int) (a : Nat) : List Nat :=
  c16 (0xe000 ||| (ext v 5 3 <<< 10) ||| ((a - 8) <<< 7) ||| (ext v 7 6 <<< 5) ||| ((s - 8) <<< 2))
def cLDSP (d : Nat) (v : Int) : List Nat :=
  c16 (0x6002 ||| (ext v 5 5 <<< 12) ||| (d <<< 7) ||| (ext v 4 3 <<< 5) ||| (ext v 8 6 <<< 2))
def cSDSP (s : Nat) (v : Int) : List Nat := c16 (0xe002 ||| (ext v 5 3 <<< 10) ||| (ext v 8 6 <<< 7) ||| (s <<< 2))
def cJR (a : Nat) : List Nat := c16 (0x8002 ||| (a <<< 7))
def cJALR (a : Nat) : List Nat := c16 (0x9002 ||| (a <<< 7))
def cFLD (d : Nat) (v : Int) (a : Nat) : List Nat :=
  c16 (0x2000 ||| (ext v 5 3 <<< 10) ||| ((a - 8) <<< 7) ||| (ext v 7 6 <<< 5) ||| ((d - 8) <<< 2))
def cFSD (s : Nat) (v : Int) (a : Nat) : List Nat :=
  c16 (0xa000 ||| (ext v 5 3 <<< 10) ||| ((a - 8) <<< 7) ||| (ext v 7 6 <<< 5) ||| ((s - 8) <<< 2))
def cFLDSP (d : Nat) (v : Int) : List Nat :=
  c16 (0x2002 ||| (ext v 5 5 <<< 12) ||| (d <<< 7) ||| (ext v 4 3 <<< 5) ||| (ext v 8 6 <<< 2))
def cFSDSP (s : Nat) (v : Int) : List Nat := c16 (0xa002 ||| (ext v 5 3 <<< 10) ||| (ext v 8 6 <<< 7) ||| (s <<< 2))

/-- opcode.h:50-112: funct7, funct3 and opcode of the operations with three registers. -/
def rCode : ROp → Nat × Nat × Nat
  | .add => (0x00, 0x00, 0x33)
  | .addw => (0x00, 0x00, 0x3b)
  | .sub => (0x20, 0x00, 0x33)
  | .subw => (0x20, 0x00, 0x3b)
  | .mul => (0x01, 0x00, 0x33)
  | .mulw => (0x01, 0x00, 0x3b)
  | .div => (0x01, 0x04, 0x33)
  | .divu => (0x01, 0x05, 0x33)
  | .divw => (0x01, 0x04, 0x3b)
  | .divuw => (0x01, 0x05, 0x3b)
  | .rem => (0x01, 0x06, 0x33)
  | .remu => (0x01, 0x07, 0x33)
  | .remw => (0x01, 0x06, 0x3b)
  | .remuw => (0x01, 0x07, 0x3b)
  | .and => (0x00, 0x07, 0x33)
  | .or => (0x00, 0x06, 0x33)
  | .xor => (0x00, 0x04, 0x33)
  | .sll => (0x00, 0x01, 0x33)
  | .sllw => (0x00, 0x01, 0x3b)
  | .srl => (0x00, 0x05, 0x33)
  | .srlw => (0x00, 0x05, 0x3b)
  | .sra => (0x20, 0x05, 0x33)
  | .sraw => (0x20, 0x05, 0x3b)
  | .slt => (0x00, 0x02, 0x33)
  | .sltu => (0x00, 0x03, 0x33)

def wR (op : ROp) (d a b : Nat) : List Nat := c32 (rtype (rCode op).1 b a (rCode op).2.1 d (rCode op).2.2)

/-- opcode.h: the operations with an immediate. -/
def wI (op : IOp) (d a : Nat) (v : Int) : List Nat :=
  match op with
  | .addi => c32 (itype v a 0x00 d 0x13)
  | .addiw => c32 (itype v a 0x00 d 0x1b)
  | .andi => c32 (itype v a 0x07 d 0x13)
  | .ori => c32 (itype v a 0x06 d 0x13)
  | .xori => c32 (itype v a 0x04 d 0x13)
  | .slli => c32 (itype (v % 64) a 0x01 d 0x13)
  | .slliw => c32 (itype (v % 32) a 0x01 d 0x1b)
  | .srli => c32 (itype (v % 64) a 0x05 d 0x13)
  | .srliw => c32 (itype (v % 64) a 0x05 d 0x1b)
  | .srai => c32 (itype (0x400 + v % 64) a 0x05 d 0x13)
  | .sraiw => c32 (itype (0x400 + v % 64) a 0x05 d 0x1b)
  | .slti => c32 (itype v a 0x02 d 0x13)
  | .sltiu => c32 (itype v a 0x03 d 0x13)

/-- opcode.c:194-356 `asm_3r`: the compressed forms for both registers in x8 … x15, if there is one. -/
def short3 (op : ROp) (d s : Nat) : Option (List Nat) :=
  match op with
  | .add => some (cADD d s)
  | .addw => some (cADDW d s)
  | .sub => some (cSUB d s)
  | .subw => some (cSUBW d s)
  | .and => some (cAND d s)
  | .or => some (cOR d s)
  | .xor => some (cXOR d s)
  | _ => none

/-- opcode.c:228-250: the ones that commute. -/
def shortSwap (op : ROp) (d s : Nat) : Option (List Nat) :=
  match op with
  | .add => some (cADD d s)
  | .addw => some (cADDW d s)
  | .and => some (cAND d s)
  | .or => some (cOR d s)
  | .xor => some (cXOR d s)
  | _ => none

/-- opcode.c:253-262 and following. -/
def long3 (op : ROp) (d a b : Nat) : List Nat :=
  match op with
  | .add => if d = a then cADD d b else if d = b then cADD d a else wR .add d a b
  | op => wR op d a b

def asm3r (op : ROp) (d a b : Nat) : List Nat :=
  if d = a then
    match if rvc d && rvc b then short3 op d b else none with
    | some c => c
    | none => long3 op d a b
  else if d = b then
    match if rvc d && rvc a then shortSwap op d a else none with
    | some c => c
    | none => long3 op d a b
  else long3 op d a b

/-- opcode.c:535-543 `asm_mv`. -/
def asmMv (d a : Nat) : List Nat := if a ≠ 0 then cMV d a else cLI d 0

/-- opcode.c:358-410 `asm_2ri`: the compressed forms for equal registers. -/
def short2 (op : IOp) (d : Nat) (v : Int) : Option (List Nat) :=
  match op with
  | .addi =>
    if isIm6 v && v != 0 then some (cADDI d v)
    else if d == 2 && isIm6 (v / 16) && v % 16 == 0 && v != 0 then some (cADDI16SP v)
    else none
  | .addiw => if isIm6 v then some (cADDIW d v) else none
  | .andi => if isIm6 v && rvc d then some (cANDI d v) else none
  | .slli => if isUim6 v && d != 0 && v != 0 then some (cSLLI d v) else none
  | .srli => if isUim6 v && rvc d then some (cSRLI d v) else none
  | .srai => if isUim6 v && rvc d then some (cSRAI d v) else none
  | _ => none

/-- opcode.c:411-480: `NULL` (`none`) for numbers out of range. -/
def long2 (op : IOp) (d a : Nat) (v : Int) : Option (List Nat) :=
  match op with
  | .slli | .slliw | .srli | .srliw | .srai | .sraiw =>
    if v ≥ 64 ∨ (op = .slliw ∧ v ≥ 32) ∨ v < 0 then none else some (wI op d a v)
  | _ => if v ≥ 2048 ∨ v < -2048 then none else some (wI op d a v)

def asm2ri (op : IOp) (d a : Nat) (v : Int) : Option (List Nat) :=
  if op = .addi ∧ v = 0 then some (if d ≠ a then asmMv d a else [])
  else if d = a then
    match short2 op d v with
    | some c => some c
    | none => long2 op d a v
  else long2 op d a v

/-- opcode.h:206-250: shift left, then right by the same count. -/
def shifts (right : IOp) (d a : Nat) (n : Int) : List Nat :=
  (if d = a then cSLLI d n else wI .slli d a n) ++
    (if rvc d then (if right = .srai then cSRAI d n else cSRLI d n) else wI right d d n)

/-- opcode.c:483-528 `asm_2r`, opcode.h:203-254.  There are `sext` and `zext` of 8, 16 and 32 bits. -/
def asm2r (op : UOp) (d a : Nat) : List Nat :=
  match op with
  | .neg => wR .sub d 0 a
  | .not => wI .xori d a (-1)
  | .sext 8 => shifts .srai d a 56
  | .sext 16 => shifts .srai d a 48
  | .sext _ => if d = a then cADDIW d 0 else wI .addiw d a 0
  | .zext 8 => wI .andi d a 0xff
  | .zext 16 => shifts .srli d a 48
  | .zext _ => shifts .srli d a 32
  | .seqz => wI .sltiu d a 1
  | .snez => wR .sltu d 0 a
  | .sltz => wR .slt d a 0
  | .sgtz => wR .slt d 0 a

/-- opcode.c:545-579 `li_sub`. -/
def liSub (d : Nat) (v : Int) : List Nat :=
  if h6 : isIm6 v then cLI d v
  else if h12 : isIm12 v then wI .addi d 0 v
  else if h32 : isIm32 v then
    let l := if v % 4096 ≥ 2048 then v % 4096 - 4096 else v % 4096
    let v' := if v % 4096 ≥ 2048 then v + 4096 else v
    (if isIm6 (v' / 4096) then cLUI d v' else c32 (utype v' d 0x37)) ++
      (if isIm6 l then cADDIW d l else wI .addiw d d l)
  else
    let l := if v % 4096 ≥ 2048 then v % 4096 - 4096 else v % 4096
    let v' := if v % 4096 ≥ 2048 then v / 4096 + 1 else v / 4096
    liSub d v' ++ cSLLI d 12 ++ (if isIm6 l then cADDI d l else wI .addi d d l)
termination_by v.natAbs
decreasing_by
  simp only [isIm32, decide_eq_true_eq] at h32
  split <;> omega

/-- opcode.c:607-650 `asm_ld`. -/
def asmLd (op : LOp) (d a : Nat) (off : Int) : List Nat :=
  let f3 := match op with | .lb => 0 | .lh => 1 | .lw => 2 | .ld => 3 | .lbu => 4 | .lhu => 5 | .lwu => 6
  if op = .lw ∧ 0 ≤ off ∧ off < 128 ∧ off % 4 = 0 ∧ rvc d ∧ rvc a then cLW d off a
  else if op = .ld ∧ 0 ≤ off ∧ off < 512 ∧ off % 8 = 0 ∧ a = 2 then cLDSP d off
  else if op = .ld ∧ 0 ≤ off ∧ off < 256 ∧ off % 8 = 0 ∧ rvc d ∧ rvc a then cLD d off a
  else c32 (itype off a f3 d 0x03)

/-- opcode.c:652-689 `asm_sd`. -/
def asmSd (op : SOp) (s a : Nat) (off : Int) : List Nat :=
  let f3 := match op with | .sb => 0 | .sh => 1 | .sw => 2 | .sd => 3
  if op = .sw ∧ 0 ≤ off ∧ off < 128 ∧ off % 4 = 0 ∧ rvc a ∧ rvc s then cSW s off a
  else if op = .sd ∧ 0 ≤ off ∧ off < 512 ∧ off % 8 = 0 ∧ a = 2 then cSDSP s off
  else if op = .sd ∧ 0 ≤ off ∧ off < 256 ∧ off % 8 = 0 ∧ rvc a ∧ rvc s then cSD s off a
  else c32 (stype off s a f3 0x23)

/-- opcode.c:929-954 `asm_fld`. -/
def asmFld (dbl : Bool) (d a : Nat) (off : Int) : List Nat :=
  if dbl ∧ 0 ≤ off ∧ off < 512 ∧ off % 8 = 0 ∧ a = 2 then cFLDSP d off
  else if dbl ∧ 0 ≤ off ∧ off < 256 ∧ off % 8 = 0 ∧ rvc d ∧ rvc a then cFLD d off a
  else c32 (itype off a (if dbl then 3 else 2) d 0x07)

/-- opcode.c:956-982 `asm_fsd`. -/
def asmFsd (dbl : Bool) (s a : Nat) (off : Int) : List Nat :=
  if dbl ∧ 0 ≤ off ∧ off < 512 ∧ off % 8 = 0 ∧ a = 2 then cFSDSP s off
  else if dbl ∧ 0 ≤ off ∧ off < 256 ∧ off % 8 = 0 ∧ rvc a ∧ rvc s then cFSD s off a
  else c32 (stype off s a (if dbl then 3 else 2) 0x27)

/-- opcode.c:733-735 and the table in `asm_bxx`. -/
def bCode : BOp → Nat
  | .beq => 0x0
  | .bne => 0x1
  | .blt => 0x4
  | .bge => 0x5
  | .bltu => 0x6
  | .bgeu => 0x7

/-- opcode.h:114-154. -/
def fArith : Arith → Nat
  | .add => 0x00
  | .sub => 0x04
  | .mul => 0x08
  | .div => 0x0c

def dblBit (dbl : Bool) : Nat := if dbl then 1 else 0

def sgnCode : Sgn → Nat
  | .j => 0
  | .jn => 1
  | .jx => 2

def cmpCode : Cmp → Nat
  | .le => 0
  | .lt => 1
  | .eq => 2

def intCode : IntK → Nat
  | .w => 0
  | .wu => 1
  | .l => 2
  | .lu => 3

/-- opcode.h:137-144: `fcvt.d.w` and `fcvt.d.wu` have rounding mode 0, the others 7. -/
def fromIntRm (k : IntK) (dbl : Bool) : Nat :=
  match k, dbl with
  | .w, true => 0
  | .wu, true => 0
  | _, _ => 7

/-- opcode.c:1146-1280: the table of handlers.  `none`: the handler returns `NULL`. -/
def encode : Req → Option (List Nat)
  | .rrr op d a b => some (asm3r op d a b)
  | .rri op d a v => asm2ri op d a v
  | .un op d a => some (asm2r op d a)
  | .mv d a => some (asmMv d a)
  | .li d v => some (liSub d v)
  | .load op d a off => some (asmLd op d a off)
  | .store op v a off => some (asmSd op v a off)
  | .fload b d a off => some (asmFld b d a off)
  | .fstore b v a off => some (asmFsd b v a off)
  -- opcode.c:691-715 `asm_j`: always the long form
  | .j off => some (c32 (utype (swizzleJ off : Int) 0 0x6f))
  | .jr a => some (cJR a)
  | .jalr a => some (cJALR a)
  -- opcode.c:738-768 `asm_bxx`
  | .branch op a b off => some (c32 (stype 0 b a (bCode op) 0x63 ||| swizzleB off))
  -- opcode.c:770-786 `asm_call_d`
  | .call off => some (c32 (utype off 1 0x17) ++ c32 (itype off 1 0x00 1 0x67))
  | .ret => some (cJR 1)
  | .ecall => some (c32 (utype 0 0 0x73))
  -- opcode.c:798-855 `asm_3fr`
  | .farith op dbl d a b => some (c32 (rtype (fArith op + dblBit dbl) b a 0x07 d 0x53))
  | .fsgnj k dbl d a b => some (c32 (rtype (0x10 + dblBit dbl) b a (sgnCode k) d 0x53))
  -- opcode.c:857-894 `asm_2fr`
  | .fsqrt dbl d a => some (c32 (rtype (0x2c + dblBit dbl) 0 a 0x07 d 0x53))
  | .fmv dbl d a => some (c32 (rtype (0x10 + dblBit dbl) a a 0x00 d 0x53))
  | .fneg dbl d a => some (c32 (rtype (0x10 + dblBit dbl) a a 0x01 d 0x53))
  | .fcvtDS d a => some (c32 (rtype 0x21 0 a 0x00 d 0x53))
  | .fcvtSD d a => some (c32 (rtype 0x20 1 a 0x07 d 0x53))
  -- opcode.c:896-927 `asm_fcmp`
  | .fcmp k dbl d a b => some (c32 (rtype (0x50 + dblBit dbl) b a (cmpCode k) d 0x53))
  -- opcode.c:1019-1068 `asm_if`
  | .fmvX dbl d a => some (c32 (rtype (0x70 + dblBit dbl) 0 a 0x00 d 0x53))
  | .fcvtToInt k dbl d a rm => some (c32 (rtype (0x60 + dblBit dbl) (intCode k) a (rm.getD 7) d 0x53))
  -- opcode.c:984-1017 `asm_fi`
  | .fcvtFromInt k dbl d a => some (c32 (rtype (0x68 + dblBit dbl) (intCode k) a (fromIntRm k dbl) d 0x53))

end Nature.Riscv
