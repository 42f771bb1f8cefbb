import Verif.Reloc.Bytes
/-!
# Wide integers and byte access of the relocation code (model)

Model of `ld_elf_reloc_integer_t` and its operations and of the byte readers and writers, src/ld/ld_elf_reloc.c:166-361.
64-bit unsigned values are natural numbers below 2^64 (arithmetic modulo 2^64 written out); `int64_t` values are integers.
-/
namespace Nature.Reloc

/-- `ld_elf_reloc_integer_t`, ld_elf_reloc.c:166-170. -/
structure RInt where
  mag : Nat
  high : Bool
  neg : Bool

/-- `ld_elf_reloc_read_u32`, ld_elf_reloc.c:172-175; a missing byte reads as 0 (callers check the size first). -/
def readU32 (l : Bytes) : BitVec 32 :=
  (l.getD 0 0#8).setWidth 32 ||| (l.getD 1 0#8).setWidth 32 <<< 8 ||| (l.getD 2 0#8).setWidth 32 <<< 16 |||
    (l.getD 3 0#8).setWidth 32 <<< 24

/-- `ld_elf_reloc_read_u16`, ld_elf_reloc.c:177-180. -/
def readU16 (l : Bytes) : BitVec 16 := (l.getD 0 0#8).setWidth 16 ||| (l.getD 1 0#8).setWidth 16 <<< 8

/-- `ld_elf_reloc_read_u64`, ld_elf_reloc.c:182-185. -/
def readU64 (l : Bytes) : BitVec 64 := (readU32 l).setWidth 64 ||| (readU32 (l.drop 4)).setWidth 64 <<< 32

/-- Store of one byte at `place[0]`. -/
def writeU8 (l : Bytes) (v : BitVec 8) : Bytes := v :: l.drop 1

/-- `ld_elf_reloc_write_u16`, ld_elf_reloc.c:187-190. -/
def writeU16 (l : Bytes) (v : BitVec 16) : Bytes := v.setWidth 8 :: (v >>> 8).setWidth 8 :: l.drop 2

/-- `ld_elf_reloc_write_u32`, ld_elf_reloc.c:192-197. -/
def writeU32 (l : Bytes) (v : BitVec 32) : Bytes :=
  v.setWidth 8 :: (v >>> 8).setWidth 8 :: (v >>> 16).setWidth 8 :: (v >>> 24).setWidth 8 :: l.drop 4

/-- A change of the bytes from `place + n` on. -/
def atOff (n : Nat) (l : Bytes) (f : Bytes → Bytes) : Bytes := l.take n ++ f (l.drop n)

/-- `ld_elf_reloc_write_u64`, ld_elf_reloc.c:199-202. -/
def writeU64 (l : Bytes) (v : BitVec 64) : Bytes :=
  atOff 4 (writeU32 l (v.setWidth 32)) fun r => writeU32 r ((v >>> 32).setWidth 32)

/-- `ld_elf_reloc_addend_magnitude`, ld_elf_reloc.c:204-206. -/
def addendMagnitude (a : Int) : Nat := (-(a + 1)).toNat + 1

/-- `ld_elf_reloc_add_modulo`, ld_elf_reloc.c:208-210. -/
def addModulo (base : Nat) (a : Int) : BitVec 64 := BitVec.ofNat 64 base + BitVec.ofInt 64 a

/-- `ld_elf_reloc_integer_normalize`, ld_elf_reloc.c:212-216. -/
def RInt.normalize (v : RInt) : RInt := if !v.high && v.mag == 0 then { v with neg := false } else v

/-- `ld_elf_reloc_integer_add`, ld_elf_reloc.c:218-236. -/
def integerAdd (base : Nat) (a : Int) : RInt :=
  if 0 ≤ a then
    let m := (base + a.toNat) % 2 ^ 64
    ⟨m, decide (m < base), false⟩
  else
    let amount := addendMagnitude a
    if amount ≤ base then RInt.normalize ⟨base - amount, false, false⟩ else RInt.normalize ⟨amount - base, false, true⟩

/-- `ld_elf_reloc_integer_subtract_unsigned`, ld_elf_reloc.c:238-263. -/
def RInt.subtract (v : RInt) (s : Nat) : RInt :=
  if s = 0 then v
  else if v.neg then
    let m := (v.mag + s) % 2 ^ 64
    { v with mag := m, high := if m < v.mag then true else v.high }
  else if v.high then
    if s ≤ v.mag then RInt.normalize { v with mag := v.mag - s }
    else RInt.normalize { v with mag := (v.mag + 2 ^ 64 - s) % 2 ^ 64, high := false }
  else if s ≤ v.mag then RInt.normalize { v with mag := v.mag - s }
  else RInt.normalize { v with mag := s - v.mag, neg := true }

/-- `ld_elf_reloc_integer_expression`, ld_elf_reloc.c:265-270. -/
def integerExpression (base : Nat) (a : Int) (s : Nat) : RInt := (integerAdd base a).subtract s

/-- `ld_elf_reloc_integer_to_signed`, ld_elf_reloc.c:272-291. -/
def RInt.toSigned (v : RInt) (bits : Nat) : Option Int :=
  if bits = 0 ∨ 64 < bits ∨ v.high then none
  else if v.neg then
    if 2 ^ (bits - 1) < v.mag then none else some (-(v.mag : Int))
  else if 2 ^ (bits - 1) - 1 < v.mag then none else some v.mag

/-- `ld_elf_reloc_integer_to_unsigned`, ld_elf_reloc.c:293-305. -/
def RInt.toUnsigned (v : RInt) (bits : Nat) : Option Nat :=
  if bits = 0 ∨ 64 < bits ∨ v.neg ∨ v.high then none
  else if bits < 64 ∧ 2 ^ bits - 1 < v.mag then none else some v.mag

/-- `ld_elf_reloc_integer_floor_page`, ld_elf_reloc.c:307-321. -/
def RInt.floorPage (v : RInt) : RInt :=
  RInt.normalize <|
    if v.high then { v with mag := 2 ^ 52 + v.mag >>> 12, high := false }
    else if v.neg then { v with mag := if v.mag % 4096 ≠ 0 then v.mag >>> 12 + 1 else v.mag >>> 12 }
    else { v with mag := v.mag >>> 12 }

/-- `ld_elf_reloc_expression_signed`, ld_elf_reloc.c:323-329. -/
def expressionSigned (base : Nat) (a : Int) (s bits : Nat) : Option Int := (integerExpression base a s).toSigned bits

/-- `ld_elf_reloc_page_delta`, ld_elf_reloc.c:331-338. -/
def pageDelta (base : Nat) (a : Int) (place : Nat) : Option Int :=
  (((integerAdd base a).floorPage).subtract (place >>> 12)).toSigned 21

/-- `ld_elf_reloc_signed_fits`, ld_elf_reloc.c:340-346. -/
def signedFits (v : Int) (bits : Nat) : Bool :=
  if bits = 0 ∨ 64 < bits then false
  else if bits = 64 then true
  else decide (-(2 ^ (bits - 1) : Int) ≤ v ∧ v ≤ 2 ^ (bits - 1) - 1)

end Nature.Reloc
