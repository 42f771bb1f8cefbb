import Verif.Reloc.Int
import Verif.Reloc.RvSpec
/-!
# Relocations of riscv64 (model)

Model of `ld_elf_relocation_write_width`, `ld_elf_relocation_check_write`, the writers of the instruction fields,
`ld_elf_reloc_riscv_apply_align` and `ld_elf_reloc_apply_riscv64`, src/ld/ld_elf_reloc.c.  A relocation error is `none`; the
messages are left out.  Not modelled: the two ULEB128 relocations (their arithmetic is the subject of Verif/Uleb), null
arguments, the choice of the architecture.
-/
namespace Nature.Reloc.Rv

/-- riscv64 part of `ld_elf_relocation_write_width`, ld_elf_reloc.c:984-1058, for the supported types of the table
`ld_elf_relocation_supported`; `none` for the others (`SIZE_MAX`). -/
def writeWidth (type : Nat) : Option Nat :=
  match type with
  | 0 | 43 | 51 => some 0
  | 33 | 37 | 52 | 53 | 54 => some 1
  | 34 | 38 | 55 | 44 | 45 => some 2
  | 2 | 3 | 9 | 11 | 36 | 40 | 18 | 19 => some 8
  | 1 | 8 | 10 | 16 | 17 | 20 | 21 | 22 | 23 | 24 | 25 | 26 | 27 | 28 | 29 | 30 | 31 | 32 | 35 | 39 | 56 | 57 => some 4
  | _ => none

/-- `ld_elf_reloc_riscv_i_type`, ld_elf_reloc.c:2719-2730. -/
def iType (w : BitVec 32) : Bool :=
  let op := w &&& 0x7f#32
  op == 0x03#32 || op == 0x07#32 || op == 0x13#32 || op == 0x1b#32 || op == 0x67#32

/-- `ld_elf_reloc_riscv_s_type`, ld_elf_reloc.c:2732-2735. -/
def sType (w : BitVec 32) : Bool :=
  let op := w &&& 0x7f#32
  op == 0x23#32 || op == 0x27#32

/-- `ld_elf_reloc_riscv_require_u32`, ld_elf_reloc.c:2737-2750. -/
def require (l : Bytes) (mask expected : BitVec 32) : Bool := readU32 l &&& mask == expected

/-- `ld_elf_reloc_riscv_write_u_type`, ld_elf_reloc.c:2752-2759. -/
def writeU (w : BitVec 32) (value : Int) : BitVec 32 :=
  let compensated := BitVec.ofInt 32 value + 0x800#32
  (w &&& 0x00000fff#32) ||| (compensated &&& 0xfffff000#32)

/-- `ld_elf_reloc_riscv_write_i_type`, ld_elf_reloc.c:2761-2767. -/
def writeI (w : BitVec 32) (value : Int) : BitVec 32 :=
  (w &&& 0x000fffff#32) ||| ((BitVec.ofInt 32 value &&& 0xfff#32) <<< 20)

/-- `ld_elf_reloc_riscv_write_s_type`, ld_elf_reloc.c:2769-2777. -/
def writeS (w : BitVec 32) (value : Int) : BitVec 32 :=
  let immediate := BitVec.ofInt 32 value &&& 0xfff#32
  let w := w &&& ~~~ 0xfe000f80#32
  let w := w ||| ((immediate &&& 0x1f#32) <<< 7)
  w ||| ((immediate &&& 0xfe0#32) <<< 20)

/-- `ld_elf_reloc_riscv_write_b_type`, ld_elf_reloc.c:2779-2789. -/
def writeB (w : BitVec 32) (value : Int) : BitVec 32 :=
  let immediate := BitVec.ofInt 32 value &&& 0x1fff#32
  let w := w &&& ~~~ 0xfe000f80#32
  let w := w ||| ((immediate &&& 0x1000#32) <<< 19)
  let w := w ||| ((immediate &&& 0x07e0#32) <<< 20)
  let w := w ||| ((immediate &&& 0x001e#32) <<< 7)
  w ||| ((immediate &&& 0x0800#32) >>> 4)

/-- `ld_elf_reloc_riscv_write_j_type`, ld_elf_reloc.c:2791-2801. -/
def writeJ (w : BitVec 32) (value : Int) : BitVec 32 :=
  let immediate := BitVec.ofInt 32 value &&& 0x1fffff#32
  let w := w &&& 0x00000fff#32
  let w := w ||| ((immediate &&& 0x100000#32) <<< 11)
  let w := w ||| ((immediate &&& 0x0007fe#32) <<< 20)
  let w := w ||| ((immediate &&& 0x000800#32) <<< 9)
  w ||| (immediate &&& 0x0ff000#32)

/-- `ld_elf_reloc_riscv_write_rvc_branch`, ld_elf_reloc.c:2803-2814. -/
def writeCB (w : BitVec 16) (value : Int) : BitVec 16 :=
  let immediate := BitVec.ofInt 16 value &&& 0x01ff#16
  let w := w &&& ~~~ 0x1c7c#16
  let w := w ||| ((immediate &&& 0x0100#16) <<< 4)
  let w := w ||| ((immediate &&& 0x0018#16) <<< 7)
  let w := w ||| ((immediate &&& 0x00c0#16) >>> 1)
  let w := w ||| ((immediate &&& 0x0006#16) <<< 2)
  w ||| ((immediate &&& 0x0020#16) >>> 3)

/-- `ld_elf_reloc_riscv_write_rvc_jump`, ld_elf_reloc.c:2816-2830. -/
def writeCJ (w : BitVec 16) (value : Int) : BitVec 16 :=
  let immediate := BitVec.ofInt 16 value &&& 0x0fff#16
  let w := w &&& ~~~ 0x1ffc#16
  let w := w ||| ((immediate &&& 0x0800#16) <<< 1)
  let w := w ||| ((immediate &&& 0x0010#16) <<< 7)
  let w := w ||| ((immediate &&& 0x0300#16) <<< 1)
  let w := w ||| ((immediate &&& 0x0400#16) >>> 2)
  let w := w ||| ((immediate &&& 0x0040#16) <<< 1)
  let w := w ||| ((immediate &&& 0x0080#16) >>> 1)
  let w := w ||| ((immediate &&& 0x000e#16) <<< 2)
  w ||| ((immediate &&& 0x0020#16) >>> 3)

/-- Read, patch and write back a 32-bit instruction, as every writer does. -/
def patch32 (l : Bytes) (f : BitVec 32 → Int → BitVec 32) (value : Int) : Bytes := writeU32 l (f (readU32 l) value)

/-- The same for 16 bits. -/
def patch16 (l : Bytes) (f : BitVec 16 → Int → BitVec 16) (value : Int) : Bytes := writeU16 l (f (readU16 l) value)

/-- `while (alignment <= padding) alignment <<= 1U`, ld_elf_reloc.c:2899-2900; `fuel` only bounds the loop (64 rounds end it,
the padding being a non-negative `int64_t`). -/
def alignmentAbove (padding : Nat) : Nat → Nat → Nat
  | 0, alignment => alignment
  | fuel + 1, alignment => if alignment ≤ padding then alignmentAbove padding fuel (alignment * 2) else alignment

/-- The loop over the padding, ld_elf_reloc.c:2912-2929; `remaining` counts down from the padding. -/
def nopLoop (l : Bytes) : Nat → Nat → Bool
  | 0, remaining => remaining == 0
  | fuel + 1, remaining =>
    if remaining = 0 then true
    else if 4 ≤ remaining && readU32 l == 0x13#32 then nopLoop (l.drop 4) fuel (remaining - 4)
    else if 2 ≤ remaining && readU16 l == 1#16 then nopLoop (l.drop 2) fuel (remaining - 2)
    else false

/-- `ld_elf_reloc_riscv_apply_align`, ld_elf_reloc.c:2868-2931. -/
def applyAlign (v : Vals) (A : Int) (l : Bytes) : Option Bytes :=
  if A < 0 then none
  else
    let padding := A.toNat
    if l.length < padding then none
    else if padding = 0 then some l
    else if padding % 2 ≠ 0 then none
    else
      let alignment := alignmentAbove padding 64 1
      if 2 ^ 64 - 1 - padding < v.P ∨ (v.P + padding) % alignment ≠ 0 then none
      else if nopLoop l padding padding then some l else none

/-- The ADD/SUB group, ld_elf_reloc.c:3200-3246. -/
def addSub (v : Vals) (A : Int) (l : Bytes) (width : Nat) (subtract : Bool) : Option Bytes :=
  let target := addModulo v.S A
  match width with
  | 1 =>
    let p := l.getD 0 0#8
    some (writeU8 l (if subtract then p - target.setWidth 8 else p + target.setWidth 8))
  | 2 =>
    let x := readU16 l
    some (writeU16 l (if subtract then x - target.setWidth 16 else x + target.setWidth 16))
  | 4 =>
    let x := readU32 l
    some (writeU32 l (if subtract then x - target.setWidth 32 else x + target.setWidth 32))
  | 8 =>
    let x := readU64 l
    some (writeU64 l (if subtract then x - target else x + target))
  | _ => none

/-- The TLS data group, ld_elf_reloc.c:2968-3004. -/
def tlsData (v : Vals) (A : Int) (l : Bytes) (dynamic wide : Bool) : Option Bytes :=
  let base := if dynamic then v.TLS else v.TP
  if dynamic && decide (2 ^ 64 - 1 - 0x800 < base) then none
  else
    let base := if dynamic then base + 0x800 else base
    (expressionSigned v.S A base (if wide then 64 else 32)).bind fun delta => some (if wide then writeU64 l (BitVec.ofInt 64 delta) else writeU32 l (BitVec.ofInt 32 delta))

/-- The GOT_HI20 group, ld_elf_reloc.c:3020-3038. -/
def gotHi (v : Vals) (A : Int) (l : Bytes) : Option Bytes :=
  (expressionSigned v.G A v.P 32).bind fun delta =>
    if require l 0x7f#32 0x17#32 then some (patch32 l writeU delta) else none

/-- A low part into an I-type or S-type instruction, e.g. ld_elf_reloc.c:3086-3109. -/
def lowPart (l : Bytes) (store : Bool) (delta : Int) : Option Bytes :=
  if store then
    if sType (readU32 l) then some (patch32 l writeS delta) else none
  else
    if iType (readU32 l) then some (patch32 l writeI delta) else none

/-- PCREL_LO12_I and PCREL_LO12_S, ld_elf_reloc.c:3039-3111. -/
def pcrelLo (v : Vals) (A : Int) (hi : Option Hi) (l : Bytes) (store : Bool) : Option Bytes :=
  if A ≠ 0 then none
  else
    match hi with
    | none => none
    | some h =>
      if h.type ≠ 23 ∧ h.type ≠ 20 ∧ h.type ≠ 21 ∧ h.type ≠ 22 then none
      else if v.S ≠ h.P then none
      else
        let pairTarget := if h.type = 23 then h.S else h.G
        (expressionSigned pairTarget h.A h.P 32).bind fun delta => lowPart l store delta

/-- HI20, LO12 and the TPREL group, ld_elf_reloc.c:3112-3195; `base` is 0 or the thread pointer. -/
def absolute (v : Vals) (A : Int) (base : Nat) (l : Bytes) (part : Nat) : Option Bytes :=
  (expressionSigned v.S A base 32).bind fun delta =>
    if part = 0 then
      if require l 0x7f#32 0x37#32 then some (patch32 l writeU delta) else none
    else lowPart l (part == 2) delta

/-- The call sequences, ld_elf_reloc.c:3367-3418. -/
def call (type : Nat) (l : Bytes) (delta : Int) : Option Bytes :=
  if !require l 0x7f#32 0x17#32 then none
  else
    let auipc := readU32 l
    let low := readU32 (l.drop 4)
    let auipcRd := (auipc >>> 7) &&& 0x1f#32
    let lowRd := (low >>> 7) &&& 0x1f#32
    let lowRs1 := (low >>> 15) &&& 0x1f#32
    let jalr := low &&& 0x707f#32 == 0x0067#32 && lowRs1 == auipcRd
    let natureAddress := type == 18 && low &&& 0x707f#32 == 0x0013#32 && lowRd == auipcRd && lowRs1 == auipcRd
    if !jalr && !natureAddress then none
    else if !signedFits delta 32 then none
    else if jalr && decide (delta % 2 ≠ 0) then none
    else some (atOff 4 (patch32 l writeU delta) fun r => patch32 r writeI delta)

/-- The tail of `ld_elf_reloc_apply_riscv64` for the PC-relative group, ld_elf_reloc.c:3300-3451. -/
def pcrel (type : Nat) (l : Bytes) (delta : Int) : Option Bytes :=
  match type with
  | 16 =>
    if !require l 0x7f#32 0x63#32 then none
    else if delta % 2 ≠ 0 ∨ signedFits delta 13 = false then none else some (patch32 l writeB delta)
  | 17 =>
    if !require l 0x7f#32 0x6f#32 then none
    else if delta % 2 ≠ 0 ∨ signedFits delta 21 = false then none else some (patch32 l writeJ delta)
  | 44 =>
    let c := readU16 l
    let funct3 := c >>> 13
    if c &&& 3#16 ≠ 1#16 ∨ (funct3 ≠ 6#16 ∧ funct3 ≠ 7#16) then none
    else if delta % 2 ≠ 0 ∨ signedFits delta 9 = false then none else some (patch16 l writeCB delta)
  | 45 =>
    let c := readU16 l
    if c &&& 0xe003#16 ≠ 0xa001#16 then none
    else if delta % 2 ≠ 0 ∨ signedFits delta 12 = false then none else some (patch16 l writeCJ delta)
  | 18 | 19 => call type l delta
  | 23 =>
    if !signedFits delta 32 then none
    else if require l 0x7f#32 0x17#32 then some (patch32 l writeU delta) else none
  | 57 => if signedFits delta 32 then some (writeU32 l (BitVec.ofInt 32 delta)) else none
  | _ => none

/-- `ld_elf_reloc_apply_riscv64`, ld_elf_reloc.c:2933-3451. -/
def applyRiscv (type : Nat) (v : Vals) (A : Int) (hi : Option Hi) (l : Bytes) : Option Bytes :=
  match type with
  | 0 | 51 => some l
  | 1 => ((integerAdd v.S A).toUnsigned 32).bind fun target => some (writeU32 l (BitVec.ofNat 32 target))
  | 2 => some (writeU64 l (addModulo v.S A))
  | 3 => some (writeU64 l (addModulo v.B A))
  | 8 => tlsData v A l true false
  | 9 => tlsData v A l true true
  | 10 => tlsData v A l false false
  | 11 => tlsData v A l false true
  | 16 | 17 | 44 | 45 | 18 | 19 | 23 | 57 =>
    (expressionSigned v.S A v.P 64).bind fun delta => pcrel type l delta
  | 20 | 21 | 22 => gotHi v A l
  | 24 => pcrelLo v A hi l false
  | 25 => pcrelLo v A hi l true
  | 26 => absolute v A 0 l 0
  | 27 => absolute v A 0 l 1
  | 28 => absolute v A 0 l 2
  | 29 => absolute v A v.TP l 0
  | 30 => absolute v A v.TP l 1
  | 31 => absolute v A v.TP l 2
  | 32 => if require l 0xfe00707f#32 0x33#32 then some l else none
  | 33 | 34 | 35 | 36 | 37 | 38 | 39 | 40 => addSub v A l ((writeWidth type).getD 0) (decide (37 ≤ type))
  | 53 => let target := (addModulo v.S A).setWidth 8
    some (writeU8 l ((l.getD 0 0#8 &&& 0xc0#8) ||| (target &&& 0x3f#8)))
  | 52 => let target := (addModulo v.S A).setWidth 8
    some (writeU8 l ((l.getD 0 0#8 &&& 0xc0#8) ||| ((l.getD 0 0#8 - target) &&& 0x3f#8)))
  | 54 => some (writeU8 l ((addModulo v.S A).setWidth 8))
  | 55 => some (writeU16 l ((addModulo v.S A).setWidth 16))
  | 56 => some (writeU32 l ((addModulo v.S A).setWidth 32))
  | 43 => applyAlign v A l
  | _ => none

/-- `ld_elf_relocation_apply` for riscv64, ld_elf_reloc.c:3453-3490, with `ld_elf_relocation_check_write`, 1831-1854. -/
def apply (type : Nat) (v : Vals) (A : Int) (hi : Option Hi) (l : Bytes) : Option Bytes :=
  match writeWidth type with
  | none => none
  | some width => if l.length < width then none else applyRiscv type v A hi l

end Nature.Reloc.Rv
