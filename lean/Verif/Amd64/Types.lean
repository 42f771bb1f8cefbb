/-! The data of the amd64 instruction encoder: `/repo/src/binary/encoding/amd64/opcode.h` and `asm.h`.

Bytes are natural numbers; everything the encoder emits is below 256. -/
namespace Nature.Amd64

/-- The names by which the compiler asks for an instruction: the `group` strings of the table
(opcode.c:13-522).  A trailing underscore only avoids a Lean keyword. -/
inductive Name
  | lea | syscall_inst | call | jmp | je | jne | ja | jae | jb | jbe | jg | jge | jl | jle | ret
  | push | pop | add | sub | idiv | div | imul | mul | mov | cmp | test_ | seta | setae | setb
  | setbe | setg | setge | setl | setle | sete | setne | cvtsi2ss | cvtsi2sd | cvttss2si
  | cvttsd2si | cvtss2sd | cvtsd2ss | neg | not_ | inc | dec | xor_ | or_ | and_ | sal | sar | shr
  | movxmm128 | fmul | fdiv | movsx | movzx
  deriving DecidableEq, Repr

/-- `inst_operand_type` (opcode.h:46-82), in the enum's order, which the sort uses.  The types no
registered row mentions (`xmm1`, `xmm2`, `xmm2m128`, `ymm*`) are left out; this does not change the
order of the others. -/
inductive OpTy
  | rel8 | rel16 | rel32 | m | m16 | m32 | m64 | r8 | r16 | r32 | r64 | rm8 | rm16 | rm32 | rm64
  | seg64 | imm8 | imm16 | imm32 | imm64 | xmm1s64 | xmm1s32 | xmm1m64 | xmm1m32 | xmm2s64
  | xmm2s32 | xmm2m32 | xmm2m64
  deriving DecidableEq, Repr

/-- `encoding_type` (opcode.h:85-91) without `VEX_VVVV`, which no registered row uses. -/
inductive Enc | rm | reg | imm | plus
  deriving DecidableEq, Repr

/-- `opcode_ext` (opcode.h:11-39) without the VEX members, which no registered row uses. -/
inductive Ext | immB | immW | immD | immQ | slash (n : Nat) | slashR | rex | rexW
  deriving DecidableEq, Repr

/-- `amd64_opcode_inst_t` (opcode.h:154-161): group, prefix byte, opcode bytes (as written, without
the zero padding to three), extensions and formal operands.  `opcode_text` is only for printing. -/
structure Row where
  group : Name
  pfx : Nat
  opc : List Nat
  exts : List Ext
  ops : List (OpTy × Enc)
  deriving DecidableEq, Repr

/-- `reg_t` (register/register.h, register/arch/amd64.c:170-300): hardware number, width in bytes,
whether it is an xmm register, and whether it is one of `ah`, `ch`, `dh`, `bh`. -/
structure Reg where
  idx : Nat
  size : Nat
  float : Bool := false
  high : Bool := false
  deriving DecidableEq, Repr

/-- The segment names `AMD64_SEG_OFFSET` (asm.h:103-113) is given. -/
inductive Seg | fs | gs | other
  deriving DecidableEq, Repr

/-- `amd64_asm_operand_t` (asm.h:44-138): what the compiler passes as an actual operand.
`FLOAT32`, `FLOAT64`, `INT8`, `INT32` and `SYMBOL` operands are not modelled: no row of the table has
a key for them, so `opcode_select` aborts on them. -/
inductive Operand
  | reg (r : Reg)
  | ind (r : Reg) (size : Nat)
  | disp (r : Reg) (d : Int) (size : Nat)
  | sib (base index : Option Reg) (scale : Nat) (d : Int) (size : Nat)
  | rip (d : Int) (size : Nat)
  | seg (s : Seg) (off : Int)
  | u8 (v : Nat)
  | u16 (v : Nat)
  | u32 (v : Nat)
  | u64 (v : Nat)
  | uint (v : Nat)
  deriving DecidableEq, Repr

/-- `amd64_asm_inst_t` (asm.h): a name and the actual operands.  The `prefix` member is left out: the
only macro that sets it (`MOVSQ`, asm.h:18) has no user. -/
structure Inst where
  name : Name
  ops : List Operand
  deriving DecidableEq, Repr

/-- `amd64_asm_operand_type` (asm.h:150-168) as used in keys. -/
inductive Kind | reg | freg | ind | disp | sib | rip | seg | u8 | u16 | u32 | u64 | uint
  deriving DecidableEq, Repr

/-- `asm_operand_to_key` (opcode.c:891-894): the pair (type, size); both fit a byte. -/
abbrev Key := Kind × Nat

/-- `operand->type` and `operand->size` (asm.h:44-147). -/
def Operand.key : Operand → Key
  | .reg r => (if r.float then .freg else .reg, r.size)
  | .ind _ s => (.ind, s)
  | .disp _ _ s => (.disp, s)
  | .sib _ _ _ _ s => (.sib, s)
  | .rip _ s => (.rip, s)
  | .seg _ _ => (.seg, 8)
  | .u8 _ => (.u8, 1)
  | .u16 _ => (.u16, 2)
  | .u32 _ => (.u32, 4)
  | .u64 _ => (.u64, 8)
  | .uint _ => (.uint, 8)

end Nature.Amd64
