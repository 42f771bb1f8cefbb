import Verif.Reloc.Bytes
/-!
# Relocations of arm64 (specification)

The table of "ELF for the Arm 64-bit Architecture": the number of each relocation, the value it computes, the range the table
demands and the field that has to show the value; the fields are those of the instruction set manual.
-/
namespace Nature.Reloc.Arm

/-- Access sizes of scaled loads and stores. -/
inductive Scale | s1 | s2 | s4 | s8 | s16
deriving DecidableEq, Repr

def Scale.bytes : Scale → Nat
  | .s1 => 1 | .s2 => 2 | .s4 => 4 | .s8 => 8 | .s16 => 16

/-- The relocations. -/
inductive Ty
  | none | abs64 | abs32 | abs16 | prel64 | prel32 | prel16
  | g0 | g0nc | g1 | g1nc | g2 | g2nc | g3
  | ldPrel19 | adr21 | adrPage | addLo12 | ldst (s : Scale) | tstbr14 | condbr19 | jump26 | call26
  | gotLd19 | gotPage | gotLo12 | gotPage15 | tlsgdPage | tlsgdLo12 | tlsiePage | tlsieLo12
  | tlsleHi12 | tlsleLo12 | tlsleLo12nc | tlsleLdst (s : Scale) | tlsleLdstnc (s : Scale)
  | descPage | descLd | descAdd | descCall
deriving DecidableEq, Repr

/-- Their numbers. -/
def Ty.code : Ty → Nat
  | .none => 0 | .abs64 => 257 | .abs32 => 258 | .abs16 => 259 | .prel64 => 260 | .prel32 => 261 | .prel16 => 262
  | .g0 => 263 | .g0nc => 264 | .g1 => 265 | .g1nc => 266 | .g2 => 267 | .g2nc => 268 | .g3 => 269
  | .ldPrel19 => 273 | .adr21 => 274 | .adrPage => 275 | .addLo12 => 277
  | .ldst .s1 => 278 | .ldst .s2 => 284 | .ldst .s4 => 285 | .ldst .s8 => 286 | .ldst .s16 => 299
  | .tstbr14 => 279 | .condbr19 => 280 | .jump26 => 282 | .call26 => 283
  | .gotLd19 => 309 | .gotPage => 311 | .gotLo12 => 312 | .gotPage15 => 313
  | .tlsgdPage => 513 | .tlsgdLo12 => 514 | .tlsiePage => 541 | .tlsieLo12 => 542
  | .tlsleHi12 => 549 | .tlsleLo12 => 550 | .tlsleLo12nc => 551
  | .tlsleLdst .s1 => 552 | .tlsleLdst .s2 => 554 | .tlsleLdst .s4 => 556 | .tlsleLdst .s8 => 558 | .tlsleLdst .s16 => 570
  | .tlsleLdstnc .s1 => 553 | .tlsleLdstnc .s2 => 555 | .tlsleLdstnc .s4 => 557 | .tlsleLdstnc .s8 => 559 | .tlsleLdstnc .s16 => 571
  | .descPage => 562 | .descLd => 563 | .descAdd => 564 | .descCall => 569

/-- Page(x): the address of the 4 KiB page. -/
def page (x : Int) : Int := x - x % 4096

/-- The value a relocation computes. -/
def Ty.value (t : Ty) (v : Vals) (A : Int) : Int :=
  match t with
  | .none | .descPage | .descLd => 0
  | .prel64 | .prel32 | .prel16 | .ldPrel19 | .adr21 | .tstbr14 | .condbr19 | .jump26 | .call26 => v.S + A - v.P
  | .adrPage => page (v.S + A) - page v.P
  | .gotLd19 => v.G + A - v.P
  | .gotPage | .tlsgdPage | .tlsiePage => page (v.G + A) - page v.P
  | .gotLo12 | .tlsgdLo12 | .tlsieLo12 => v.G + A
  | .gotPage15 => v.G + A - page v.GOT
  | .tlsleHi12 | .tlsleLo12 | .tlsleLo12nc | .tlsleLdst _ | .tlsleLdstnc _ | .descAdd | .descCall => v.S + A - v.TP
  | _ => v.S + A

/-- What a relocation has to show. -/
inductive Field
  | nothing
  /-- `n` bytes of data, wrapping -/
  | data (n : Nat)
  /-- the `g`-th 16 bits, in a move of 16 bits -/
  | imm16 (g : Nat)
  /-- word offsets of 14, 19 and 26 bits -/
  | imm14 | imm19 | imm26
  /-- byte and page offsets of 21 bits, split into two fields -/
  | imm21 | page21
  /-- the low 12 bits, in units of `n` bytes -/
  | low12 (n : Nat)
  /-- the next 12 bits -/
  | high12
  /-- 15 bits in units of eight -/
  | imm15
  /-- a no-op; `movz x0, #…, lsl #16` and `movk x0, #…` with the upper and the lower 16 bits -/
  | nop | movzHigh | movkLow
deriving DecidableEq, Repr

def Ty.field : Ty → Field
  | .none => .nothing
  | .abs64 | .prel64 => .data 8 | .abs32 | .prel32 => .data 4 | .abs16 | .prel16 => .data 2
  | .g0 | .g0nc => .imm16 0 | .g1 | .g1nc => .imm16 1 | .g2 | .g2nc => .imm16 2 | .g3 => .imm16 3
  | .ldPrel19 | .gotLd19 | .condbr19 => .imm19
  | .adr21 => .imm21
  | .adrPage | .gotPage | .tlsgdPage | .tlsiePage => .page21
  | .addLo12 | .tlsgdLo12 | .tlsleLo12 | .tlsleLo12nc => .low12 1
  | .ldst s | .tlsleLdst s | .tlsleLdstnc s => .low12 s.bytes
  | .gotLo12 | .tlsieLo12 => .low12 8
  | .gotPage15 => .imm15
  | .tlsleHi12 => .high12
  | .tstbr14 => .imm14
  | .jump26 | .call26 => .imm26
  | .descPage | .descLd => .nop
  | .descAdd => .movzHigh
  | .descCall => .movkLow

/-- The range the table demands: "check that …". -/
def Ty.Fits (t : Ty) (x : Int) : Prop :=
  match t with
  | .abs32 | .prel32 => -2 ^ 31 ≤ x ∧ x < 2 ^ 32
  | .abs16 | .prel16 => -2 ^ 15 ≤ x ∧ x < 2 ^ 16
  | .g0 => 0 ≤ x ∧ x < 2 ^ 16
  | .g1 => 0 ≤ x ∧ x < 2 ^ 32
  | .g2 => 0 ≤ x ∧ x < 2 ^ 48
  | .ldPrel19 | .gotLd19 | .condbr19 => x % 4 = 0 ∧ -2 ^ 20 ≤ x ∧ x < 2 ^ 20
  | .adr21 => -2 ^ 20 ≤ x ∧ x < 2 ^ 20
  | .adrPage | .gotPage | .tlsgdPage | .tlsiePage => -2 ^ 32 ≤ x ∧ x < 2 ^ 32
  | .tstbr14 => x % 4 = 0 ∧ -2 ^ 15 ≤ x ∧ x < 2 ^ 15
  | .jump26 | .call26 => x % 4 = 0 ∧ -2 ^ 27 ≤ x ∧ x < 2 ^ 27
  | .ldst s | .tlsleLdstnc s => x % s.bytes = 0
  | .gotLo12 | .tlsieLo12 => x % 8 = 0
  | .gotPage15 => x % 8 = 0 ∧ 0 ≤ x ∧ x < 2 ^ 15
  | .tlsleHi12 => 0 ≤ x ∧ x < 2 ^ 24
  | .tlsleLo12 => 0 ≤ x ∧ x < 2 ^ 12
  | .tlsleLdst s => x % s.bytes = 0 ∧ 0 ≤ x ∧ x < 2 ^ 12
  | .descAdd | .descCall => 0 ≤ x ∧ x < 2 ^ 32
  | _ => True

/-- Bytes of the place the field occupies. -/
def Field.width : Field → Nat
  | .nothing => 0
  | .data n => n
  | _ => 4

/-- The 21-bit immediate of ADR and ADRP. -/
def adrImm (w : BitVec 32) : Int := ((w.extractLsb' 5 19 ++ w.extractLsb' 29 2).setWidth 21).toInt

/-- The patched place shows the value. -/
def Field.Shows (f : Field) (old new : Bytes) (x : Int) : Prop :=
  let w := insn new
  match f with
  | .nothing => new = old
  | .data n => (leNat n new : Int) = x % 2 ^ (8 * n)
  | .imm16 g => ((w.extractLsb' 5 16).toNat : Int) = x / 2 ^ (16 * g) % 2 ^ 16
  | .imm14 => (w.extractLsb' 5 14).toInt * 4 = x
  | .imm19 => (w.extractLsb' 5 19).toInt * 4 = x
  | .imm26 => (w.extractLsb' 0 26).toInt * 4 = x
  | .imm21 => adrImm w = x
  | .page21 => adrImm w * 4096 = x
  | .low12 n => ((w.extractLsb' 10 12).toNat : Int) * n = x % 4096
  | .high12 => ((w.extractLsb' 10 12).toNat : Int) * 4096 = x - x % 4096
  | .imm15 => ((w.extractLsb' 10 12).toNat : Int) * 8 = x
  | .nop => w = 0xd503201f#32
  | .movzHigh => w.extractLsb' 21 11 = 0b11010010101#11 ∧ w.extractLsb' 0 5 = 0#5 ∧ ((w.extractLsb' 5 16).toNat : Int) * 2 ^ 16 = x - x % 2 ^ 16
  | .movkLow => w.extractLsb' 21 11 = 0b11110010100#11 ∧ w.extractLsb' 0 5 = 0#5 ∧ ((w.extractLsb' 5 16).toNat : Int) = x % 2 ^ 16

/-- Nothing else changed: the size, the bytes behind the field, and the other fields of the instruction. -/
def Field.Keeps (f : Field) (old new : Bytes) : Prop :=
  let w := insn new
  let o := insn old
  new.length = old.length ∧ new.drop f.width = old.drop f.width ∧
  match f with
  | .imm16 _ => w.extractLsb' 0 5 = o.extractLsb' 0 5 ∧ w.extractLsb' 21 11 = o.extractLsb' 21 11
  | .imm14 => w.extractLsb' 0 5 = o.extractLsb' 0 5 ∧ w.extractLsb' 19 13 = o.extractLsb' 19 13
  | .imm19 => w.extractLsb' 0 5 = o.extractLsb' 0 5 ∧ w.extractLsb' 24 8 = o.extractLsb' 24 8
  | .imm26 => w.extractLsb' 26 6 = o.extractLsb' 26 6
  | .imm21 | .page21 => w.extractLsb' 0 5 = o.extractLsb' 0 5 ∧ w.extractLsb' 24 5 = o.extractLsb' 24 5 ∧ w.extractLsb' 31 1 = o.extractLsb' 31 1
  | .low12 _ | .high12 | .imm15 => w.extractLsb' 0 10 = o.extractLsb' 0 10 ∧ w.extractLsb' 22 10 = o.extractLsb' 22 10
  | _ => True

/-- The instructions a TLS descriptor call consists of; they are replaced, so they must be the expected ones. -/
def Ty.Form (t : Ty) (l : Bytes) : Prop :=
  let w := insn l
  match t with
  | .descPage => w.extractLsb' 31 1 = 1#1 ∧ w.extractLsb' 24 5 = 0b10000#5 ∧ w.extractLsb' 0 5 = 0#5
  | .descLd => w.extractLsb' 22 10 = 0b1111100101#10 ∧ w.extractLsb' 5 5 = 0#5
  | .descAdd => w.extractLsb' 22 10 = 0b1001000100#10 ∧ w.extractLsb' 0 10 = 0#10
  | .descCall => w.extractLsb' 10 22 = 0b1101011000111111000000#22 ∧ w.extractLsb' 0 5 = 0#5
  | _ => True

end Nature.Reloc.Arm
