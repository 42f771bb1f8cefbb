import Verif.Reloc.Int
/-!
# Relocations of arm64 (model)

Model of the arm64 part of `ld_elf_relocation_write_width`, of the writers of the instruction fields and of
`ld_elf_reloc_apply_aarch64`, src/ld/ld_elf_reloc.c.  A relocation error is `none`; the messages are left out, as are null
arguments and the choice of the architecture.
-/
namespace Nature.Reloc.Arm

/-- The arm64 part of the table `ld_elf_relocation_supported`, ld_elf_reloc.c:661-721. -/
def supported (type : Nat) : Bool :=
  type ∈ [0, 257, 258, 259, 260, 261, 262, 263, 264, 265, 266, 267, 268, 269, 273, 274, 275, 277, 278, 279, 280, 282, 283, 284, 285,
    286, 299, 309, 311, 312, 313, 513, 514, 541, 542, 549, 550, 551, 552, 553, 554, 555, 556, 557, 558, 559, 562, 563, 564, 569,
    570, 571]

/-- arm64 part of `ld_elf_relocation_write_width`, ld_elf_reloc.c:984-1000; `none` for unsupported types (`SIZE_MAX`). -/
def writeWidth (type : Nat) : Option Nat :=
  if !supported type then none
  else if type = 0 then some 0
  else if type = 257 ∨ type = 260 then some 8
  else if type = 259 ∨ type = 262 then some 2
  else some 4

/-- `ld_elf_reloc_write_adr`, ld_elf_reloc.c:1856-1864. -/
def writeAdr (w : BitVec 32) (immediate : Int) : BitVec 32 :=
  let encoded := BitVec.ofInt 32 immediate &&& 0x1fffff#32
  let w := w &&& ~~~ 0x60ffffe0#32
  let w := w ||| ((encoded &&& 3#32) <<< 29)
  w ||| (((encoded >>> 2) &&& 0x7ffff#32) <<< 5)

/-- `ld_elf_reloc_write_branch26`, ld_elf_reloc.c:1866-1872. -/
def writeBranch26 (w : BitVec 32) (displacement : Int) : BitVec 32 :=
  let immediate := BitVec.ofInt 32 (displacement.tdiv 4) &&& 0x03ffffff#32
  (w &&& 0xfc000000#32) ||| immediate

/-- `ld_elf_reloc_write_imm19`, ld_elf_reloc.c:1874-1881. -/
def writeImm19 (w : BitVec 32) (displacement : Int) : BitVec 32 :=
  let immediate := BitVec.ofInt 32 (displacement.tdiv 4) &&& 0x7ffff#32
  (w &&& ~~~ 0x00ffffe0#32) ||| (immediate <<< 5)

/-- `ld_elf_reloc_write_imm14`, ld_elf_reloc.c:1883-1890. -/
def writeImm14 (w : BitVec 32) (displacement : Int) : BitVec 32 :=
  let immediate := BitVec.ofInt 32 (displacement.tdiv 4) &&& 0x3fff#32
  (w &&& ~~~ 0x0007ffe0#32) ||| (immediate <<< 5)

/-- `ld_elf_reloc_write_movw`, ld_elf_reloc.c:1892-1897. -/
def writeMovw (w : BitVec 32) (immediate : BitVec 16) : BitVec 32 :=
  (w &&& ~~~ 0x001fffe0#32) ||| (immediate.setWidth 32 <<< 5)

/-- `ld_elf_reloc_write_imm12`, ld_elf_reloc.c:1899-1904. -/
def writeImm12 (w : BitVec 32) (immediate : BitVec 16) : BitVec 32 :=
  (w &&& ~~~ 0x003ffc00#32) ||| ((immediate.setWidth 32 &&& 0xfff#32) <<< 10)

/-- Read, patch and write back an instruction, as every writer does. -/
def patch {α : Type} (l : Bytes) (f : BitVec 32 → α → BitVec 32) (a : α) : Bytes := writeU32 l (f (readU32 l) a)

/-- `ld_elf_reloc_aarch64_require_instruction`, ld_elf_reloc.c:1906-1920. -/
def require (l : Bytes) (mask expected : BitVec 32) : Bool := readU32 l &&& mask == expected

/-- `ld_elf_reloc_floor_shift_12` and `_16`, ld_elf_reloc.c:348-362, with `unit` 4096 or 65536 (`quotient` is far below 2^63). -/
def floorShift (unit : Nat) (v : Int) : Int :=
  if 0 ≤ v then v.tdiv unit else -(((addendMagnitude v + (unit - 1)) / unit : Nat) : Int)

/-- MOVW_UABS_G0 … G3, ld_elf_reloc.c:1968-2036. -/
def movw (v : Vals) (A : Int) (l : Bytes) (shift : Nat) (noCheck : Bool) : Option Bytes :=
  let target := if noCheck then some (addModulo v.S A).toNat else (integerAdd v.S A).toUnsigned (shift + 16)
  target.bind fun target => some (patch l writeMovw (BitVec.ofNat 16 (target >>> shift % 2 ^ 16)))

/-- Page displacements, ld_elf_reloc.c:2063-2087. -/
def pagePart (base : Nat) (v : Vals) (A : Int) (l : Bytes) : Option Bytes :=
  (pageDelta base A v.P).bind fun delta => some (patch l writeAdr delta)

/-- Low parts with a scale, ld_elf_reloc.c:2088-2105 and 2134-2180. -/
def lowPart (base : Nat) (A : Int) (l : Bytes) (scale : Nat) : Option Bytes :=
  let target := (addModulo base A).toNat
  if target % scale ≠ 0 then none else some (patch l writeImm12 (BitVec.ofNat 16 (target % 4096 / scale)))

/-- LD64_GOTPAGE_LO15, ld_elf_reloc.c:2106-2133. -/
def gotPageOffset (v : Vals) (A : Int) (l : Bytes) : Option Bytes :=
  let gotPage := v.GOT - v.GOT % 4096
  ((integerExpression v.G A gotPage).toUnsigned 15).bind fun target =>
    if target % 8 ≠ 0 then none else some (patch l writeImm12 (BitVec.ofNat 16 (target / 8)))

/-- TLSLE_ADD_TPREL_*, ld_elf_reloc.c:2249-2284. -/
def tlsAdd (type : Nat) (v : Vals) (A : Int) (l : Bytes) : Option Bytes :=
  (expressionSigned v.S A v.TP 64).bind fun delta =>
    if type = 549 then
      let high := floorShift 4096 delta
      if signedFits high 12 then some (patch l writeImm12 (BitVec.ofInt 16 high &&& 0xfff#16)) else none
    else if type = 550 ∧ (delta < 0 ∨ 0xfff < delta) then none
    else some (patch l writeImm12 (BitVec.ofInt 16 delta &&& 0xfff#16))

/-- TLSLE_LDST*_TPREL_LO12 and _NC, ld_elf_reloc.c:2285-2357. -/
def tlsLdst (scale : Nat) (noCheck : Bool) (v : Vals) (A : Int) (l : Bytes) : Option Bytes :=
  (expressionSigned v.S A v.TP 64).bind fun delta =>
    if !noCheck && (decide (delta < 0) || decide (0xfff < delta)) then none
    else
      let low := (BitVec.ofInt 64 delta).toNat % 4096
      if low % scale ≠ 0 then none else some (patch l writeImm12 (BitVec.ofNat 16 (low / scale)))

/-- TLSDESC_ADD_LO12, ld_elf_reloc.c:2197-2229. -/
def descAdd (v : Vals) (A : Int) (l : Bytes) : Option Bytes :=
  if !require l 0xffc003ff#32 0x91000000#32 then none
  else (expressionSigned v.S A v.TP 64).bind fun delta =>
    let high := floorShift 65536 delta
    if signedFits high 16 then some (writeU32 l (0xd2a00000#32 ||| ((BitVec.ofInt 16 high).setWidth 32 <<< 5))) else none

/-- TLSDESC_CALL, ld_elf_reloc.c:2230-2248. -/
def descCall (v : Vals) (A : Int) (l : Bytes) : Option Bytes :=
  if !require l 0xfffffc1f#32 0xd63f0000#32 then none
  else (expressionSigned v.S A v.TP 32).bind fun delta =>
    some (writeU32 l (0xf2800000#32 ||| ((BitVec.ofInt 16 delta).setWidth 32 <<< 5)))

/-- The PC-relative group after the distance is known, ld_elf_reloc.c:2364-2444. -/
def pcrel (type : Nat) (l : Bytes) (delta : Int) : Option Bytes :=
  match type with
  | 260 => some (writeU64 l (BitVec.ofInt 64 delta))
  | 261 => if signedFits delta 32 then some (writeU32 l (BitVec.ofInt 32 delta)) else none
  | 262 => if signedFits delta 16 then some (writeU16 l (BitVec.ofInt 16 delta)) else none
  | 273 | 309 => if delta % 4 ≠ 0 then none else if signedFits delta 21 then some (patch l writeImm19 delta) else none
  | 274 => if signedFits delta 21 then some (patch l writeAdr delta) else none
  | 279 => if delta % 4 ≠ 0 then none else if signedFits delta 16 then some (patch l writeImm14 delta) else none
  | 280 => if delta % 4 ≠ 0 then none else if signedFits delta 21 then some (patch l writeImm19 delta) else none
  | _ => if delta % 4 ≠ 0 then none else if signedFits delta 28 then some (patch l writeBranch26 delta) else none

/-- ABS32 and ABS16, ld_elf_reloc.c:1941-1967. -/
def absolute (v : Vals) (A : Int) (l : Bytes) (wide : Bool) : Option Bytes :=
  ((integerAdd v.S A).toUnsigned (if wide then 32 else 16)).bind fun target =>
    some (if wide then writeU32 l (BitVec.ofNat 32 target) else writeU16 l (BitVec.ofNat 16 target))

/-- `ld_elf_reloc_apply_aarch64`, ld_elf_reloc.c:1922-2444. -/
def applyArm (type : Nat) (v : Vals) (A : Int) (l : Bytes) : Option Bytes :=
  match type with
  | 0 => some l
  | 257 => some (writeU64 l (addModulo v.S A))
  | 258 => absolute v A l true
  | 259 => absolute v A l false
  | 263 => movw v A l 0 false
  | 264 => movw v A l 0 true
  | 265 => movw v A l 16 false
  | 266 => movw v A l 16 true
  | 267 => movw v A l 32 false
  | 268 => movw v A l 32 true
  | 269 => movw v A l 48 false
  | 260 | 261 | 262 | 273 | 274 | 279 | 280 | 282 | 283 => (expressionSigned v.S A v.P 64).bind fun delta => pcrel type l delta
  | 309 => (expressionSigned v.G A v.P 64).bind fun delta => pcrel type l delta
  | 275 => pagePart v.S v A l
  | 311 | 513 | 541 => pagePart v.G v A l
  | 277 => lowPart v.S A l 1
  | 312 | 542 => lowPart v.G A l 8
  | 313 => gotPageOffset v A l
  | 514 => lowPart v.G A l 1
  | 278 => lowPart v.S A l 1
  | 284 => lowPart v.S A l 2
  | 285 => lowPart v.S A l 4
  | 286 => lowPart v.S A l 8
  | 299 => lowPart v.S A l 16
  | 562 => if require l 0x9f00001f#32 0x90000000#32 then some (writeU32 l 0xd503201f#32) else none
  | 563 => if require l 0xffc003e0#32 0xf9400000#32 then some (writeU32 l 0xd503201f#32) else none
  | 564 => descAdd v A l
  | 569 => descCall v A l
  | 549 | 550 | 551 => tlsAdd type v A l
  | 552 => tlsLdst 1 false v A l
  | 553 => tlsLdst 1 true v A l
  | 554 => tlsLdst 2 false v A l
  | 555 => tlsLdst 2 true v A l
  | 556 => tlsLdst 4 false v A l
  | 557 => tlsLdst 4 true v A l
  | 558 => tlsLdst 8 false v A l
  | 559 => tlsLdst 8 true v A l
  | 570 => tlsLdst 16 false v A l
  | 571 => tlsLdst 16 true v A l
  | _ => none

/-- `ld_elf_relocation_apply` for arm64, ld_elf_reloc.c:3453-3490, with `ld_elf_relocation_check_write`, 1831-1854. -/
def apply (type : Nat) (v : Vals) (A : Int) (l : Bytes) : Option Bytes :=
  match writeWidth type with
  | none => none
  | some width => if l.length < width then none else applyArm type v A l

end Nature.Reloc.Arm
