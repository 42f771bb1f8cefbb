import Verif.Reloc.Bytes
/-!
# Relocations of riscv64 (specification)

The table of the RISC-V psABI, written from that document: the number of each relocation, the value it computes and the field
of the instruction (or the data) that has to show that value; the fields are those of the instruction set manual.
-/
namespace Nature.Reloc.Rv

/-- The relocations. -/
inductive Ty
  | none | r32 | r64 | relative | dtprel32 | dtprel64 | tprel32 | tprel64
  | branch | jal | call | callPlt | gotHi20 | tlsGotHi20 | tlsGdHi20 | pcrelHi20 | pcrelLo12I | pcrelLo12S
  | hi20 | lo12I | lo12S | tprelHi20 | tprelLo12I | tprelLo12S | tprelAdd
  | add8 | add16 | add32 | add64 | sub8 | sub16 | sub32 | sub64
  | rvcBranch | rvcJump | relax | sub6 | set6 | set8 | set16 | set32 | pcrel32
deriving DecidableEq, Repr

/-- Their numbers. -/
def Ty.code : Ty → Nat
  | .none => 0 | .r32 => 1 | .r64 => 2 | .relative => 3 | .dtprel32 => 8 | .dtprel64 => 9 | .tprel32 => 10 | .tprel64 => 11
  | .branch => 16 | .jal => 17 | .call => 18 | .callPlt => 19 | .gotHi20 => 20 | .tlsGotHi20 => 21 | .tlsGdHi20 => 22
  | .pcrelHi20 => 23 | .pcrelLo12I => 24 | .pcrelLo12S => 25 | .hi20 => 26 | .lo12I => 27 | .lo12S => 28 | .tprelHi20 => 29
  | .tprelLo12I => 30 | .tprelLo12S => 31 | .tprelAdd => 32 | .add8 => 33 | .add16 => 34 | .add32 => 35 | .add64 => 36
  | .sub8 => 37 | .sub16 => 38 | .sub32 => 39 | .sub64 => 40 | .rvcBranch => 44 | .rvcJump => 45 | .relax => 51 | .sub6 => 52
  | .set6 => 53 | .set8 => 54 | .set16 => 55 | .set32 => 56 | .pcrel32 => 57

/-- The high-part relocation a low-part one belongs to: what it was, where, against what. -/
structure Hi where
  type : Nat
  P : Nat
  S : Nat
  G : Nat
  A : Int

/-- The value of a high-part relocation: distance from its place to its target. -/
def Hi.value (h : Hi) : Int := if h.type = Ty.pcrelHi20.code then (h.S : Int) + h.A - h.P else (h.G : Int) + h.A - h.P

/-- The high-part relocations that a PC-relative low part may refer to. -/
def Hi.Pc (h : Hi) : Prop :=
  h.type = Ty.pcrelHi20.code ∨ h.type = Ty.gotHi20.code ∨ h.type = Ty.tlsGotHi20.code ∨ h.type = Ty.tlsGdHi20.code

structure Hi.Wide (h : Hi) : Prop where
  P : h.P < 2 ^ 64
  S : h.S < 2 ^ 64
  G : h.G < 2 ^ 64
  A : Reloc.Wide h.A

/-- The value a relocation computes. -/
def Ty.value (t : Ty) (v : Vals) (A : Int) (hi : Option Hi) : Int :=
  match t with
  | .none | .relax | .tprelAdd => 0
  | .relative => v.B + A
  | .dtprel32 | .dtprel64 => v.S + A - (v.TLS + 0x800)
  | .tprel32 | .tprel64 | .tprelHi20 | .tprelLo12I | .tprelLo12S => v.S + A - v.TP
  | .branch | .jal | .call | .callPlt | .pcrelHi20 | .rvcBranch | .rvcJump | .pcrel32 => v.S + A - v.P
  | .gotHi20 | .tlsGotHi20 | .tlsGdHi20 => v.G + A - v.P
  | .pcrelLo12I | .pcrelLo12S => (hi.map Hi.value).getD 0
  | _ => v.S + A

/-! ### Immediates of the instruction set -/

def immI (w : BitVec 32) : Int := (w.extractLsb' 20 12).toInt
def immS (w : BitVec 32) : Int := ((w.extractLsb' 25 7 ++ w.extractLsb' 7 5).setWidth 12).toInt
def immB (w : BitVec 32) : Int :=
  ((w.extractLsb' 31 1 ++ w.extractLsb' 7 1 ++ w.extractLsb' 25 6 ++ w.extractLsb' 8 4 ++ 0#1).setWidth 13).toInt
def immU (w : BitVec 32) : Int := ((w.extractLsb' 12 20 ++ 0#12).setWidth 32).toInt
def immJ (w : BitVec 32) : Int :=
  ((w.extractLsb' 31 1 ++ w.extractLsb' 12 8 ++ w.extractLsb' 20 1 ++ w.extractLsb' 21 10 ++ 0#1).setWidth 21).toInt
/-- c.beqz and c.bnez: offset[8|4:3] in bits 12:10, offset[7:6|2:1|5] in bits 6:2. -/
def immCB (w : BitVec 16) : Int :=
  ((w.extractLsb' 12 1 ++ w.extractLsb' 5 2 ++ w.extractLsb' 2 1 ++ w.extractLsb' 10 2 ++ w.extractLsb' 3 2 ++ 0#1).setWidth 9).toInt
/-- c.j: offset[11|4|9:8|10|6|7|3:1|5] in bits 12:2. -/
def immCJ (w : BitVec 16) : Int :=
  ((w.extractLsb' 12 1 ++ w.extractLsb' 8 1 ++ w.extractLsb' 9 2 ++ w.extractLsb' 6 1 ++ w.extractLsb' 7 1 ++ w.extractLsb' 2 1 ++
    w.extractLsb' 11 1 ++ w.extractLsb' 3 3 ++ 0#1).setWidth 12).toInt

/-- The low part of a value split into a 20-bit and a signed 12-bit part. -/
def lo12 (x : Int) : Int := (x + 2048) % 4096 - 2048

/-- What a relocation has to show. -/
inductive Field
  | nothing
  /-- unsigned, signed, and wrapping numbers of `n` bytes -/
  | unsigned (n : Nat) | signed (n : Nat) | wrapped (n : Nat)
  /-- the old number plus or minus the value -/
  | plus (n : Nat) | minus (n : Nat)
  /-- the low six bits of a byte -/
  | six | minusSix
  | U | I | S | B | J | CB | CJ
  /-- two instructions, a U immediate and an I immediate -/
  | pair
deriving DecidableEq, Repr

def Ty.field : Ty → Field
  | .none | .relax | .tprelAdd => .nothing
  | .r32 => .unsigned 4
  | .r64 | .relative => .wrapped 8
  | .dtprel32 | .tprel32 | .pcrel32 => .signed 4
  | .dtprel64 | .tprel64 => .signed 8
  | .branch => .B | .jal => .J | .rvcBranch => .CB | .rvcJump => .CJ
  | .call | .callPlt => .pair
  | .gotHi20 | .tlsGotHi20 | .tlsGdHi20 | .pcrelHi20 | .hi20 | .tprelHi20 => .U
  | .pcrelLo12I | .lo12I | .tprelLo12I => .I
  | .pcrelLo12S | .lo12S | .tprelLo12S => .S
  | .add8 => .plus 1 | .add16 => .plus 2 | .add32 => .plus 4 | .add64 => .plus 8
  | .sub8 => .minus 1 | .sub16 => .minus 2 | .sub32 => .minus 4 | .sub64 => .minus 8
  | .sub6 => .minusSix | .set6 => .six | .set8 => .wrapped 1 | .set16 => .wrapped 2 | .set32 => .wrapped 4

/-- Bytes of the place the field occupies. -/
def Field.width : Field → Nat
  | .nothing => 0
  | .unsigned n | .signed n | .wrapped n | .plus n | .minus n => n
  | .six | .minusSix => 1
  | .U | .I | .S | .B | .J => 4
  | .CB | .CJ => 2
  | .pair => 8

/-- The patched place shows the value. -/
def Field.Shows (f : Field) (old new : Bytes) (x : Int) : Prop :=
  match f with
  | .nothing => new = old
  | .unsigned n => (leNat n new : Int) = x
  | .signed n => signedNat n (leNat n new) = x
  | .wrapped n => (leNat n new : Int) = x % 2 ^ (8 * n)
  | .plus n => (leNat n new : Int) = (leNat n old + x) % 2 ^ (8 * n)
  | .minus n => (leNat n new : Int) = (leNat n old - x) % 2 ^ (8 * n)
  | .six => (leNat 1 new : Int) % 64 = x % 64
  | .minusSix => (leNat 1 new : Int) % 64 = (leNat 1 old - x) % 64
  | .U => immU (insn new) = x - lo12 x
  | .I => immI (insn new) = lo12 x
  | .S => immS (insn new) = lo12 x
  | .B => immB (insn new) = x
  | .J => immJ (insn new) = x
  | .CB => immCB (cinsn new) = x
  | .CJ => immCJ (cinsn new) = x
  | .pair => immU (insn new) + immI (insn (new.drop 4)) = x

/-- Nothing else changed: the size, the bytes behind the field, and the other fields of the instruction. -/
def Field.Keeps (f : Field) (old new : Bytes) : Prop :=
  new.length = old.length ∧ new.drop f.width = old.drop f.width ∧
  match f with
  | .six | .minusSix => leNat 1 new / 64 = leNat 1 old / 64
  | .U | .J => (insn new).extractLsb' 0 12 = (insn old).extractLsb' 0 12
  | .I => (insn new).extractLsb' 0 20 = (insn old).extractLsb' 0 20
  | .S | .B => (insn new).extractLsb' 0 7 = (insn old).extractLsb' 0 7 ∧ (insn new).extractLsb' 12 13 = (insn old).extractLsb' 12 13
  | .CB => (cinsn new).extractLsb' 0 2 = (cinsn old).extractLsb' 0 2 ∧ (cinsn new).extractLsb' 7 3 = (cinsn old).extractLsb' 7 3 ∧
      (cinsn new).extractLsb' 13 3 = (cinsn old).extractLsb' 13 3
  | .CJ => (cinsn new).extractLsb' 0 2 = (cinsn old).extractLsb' 0 2 ∧ (cinsn new).extractLsb' 13 3 = (cinsn old).extractLsb' 13 3
  | .pair => (insn new).extractLsb' 0 12 = (insn old).extractLsb' 0 12 ∧
      (insn (new.drop 4)).extractLsb' 0 20 = (insn (old.drop 4)).extractLsb' 0 20
  | _ => True

/-- The values the field can show. A high part is right exactly if high and low part together can be. -/
def Field.Fits (f : Field) (x : Int) : Prop :=
  match f with
  | .unsigned n => 0 ≤ x ∧ x < 2 ^ (8 * n)
  | .signed n => -2 ^ (8 * n - 1) ≤ x ∧ x < 2 ^ (8 * n - 1)
  | .U | .pair => -2 ^ 31 - 2048 ≤ x ∧ x < 2 ^ 31 - 2048
  | .B => x % 2 = 0 ∧ -2 ^ 12 ≤ x ∧ x < 2 ^ 12
  | .J => x % 2 = 0 ∧ -2 ^ 20 ≤ x ∧ x < 2 ^ 20
  | .CB => x % 2 = 0 ∧ -2 ^ 8 ≤ x ∧ x < 2 ^ 8
  | .CJ => x % 2 = 0 ∧ -2 ^ 11 ≤ x ∧ x < 2 ^ 11
  | _ => True

/-! ### The instruction a relocation may stand on -/

def opcode (w : BitVec 32) : Nat := (w.extractLsb' 0 7).toNat
def rd (w : BitVec 32) : BitVec 5 := w.extractLsb' 7 5
def rs1 (w : BitVec 32) : BitVec 5 := w.extractLsb' 15 5
def funct3 (w : BitVec 32) : Nat := (w.extractLsb' 12 3).toNat

/-- auipc followed by a jalr over the same register; the call reaches even addresses only. -/
def JumpPair (l : Bytes) (x : Int) : Prop :=
  opcode (insn l) = 0x17 ∧ opcode (insn (l.drop 4)) = 0x67 ∧ funct3 (insn (l.drop 4)) = 0 ∧ rs1 (insn (l.drop 4)) = rd (insn l) ∧ x % 2 = 0

/-- auipc followed by an addi to the same register. -/
def AddressPair (l : Bytes) : Prop :=
  opcode (insn l) = 0x17 ∧ opcode (insn (l.drop 4)) = 0x13 ∧ funct3 (insn (l.drop 4)) = 0 ∧ rs1 (insn (l.drop 4)) = rd (insn l) ∧
  rd (insn (l.drop 4)) = rd (insn l)

/-- The instruction (or pair) at the place is of the right form; PC-relative low parts have their high part. -/
def Ty.Form (t : Ty) (v : Vals) (A : Int) (hi : Option Hi) (l : Bytes) : Prop :=
  match t with
  | .branch => opcode (insn l) = 0x63
  | .jal => opcode (insn l) = 0x6f
  | .call => JumpPair l (t.value v A hi) ∨ AddressPair l
  | .callPlt => JumpPair l (t.value v A hi)
  | .gotHi20 | .tlsGotHi20 | .tlsGdHi20 | .pcrelHi20 => opcode (insn l) = 0x17
  | .hi20 | .tprelHi20 => opcode (insn l) = 0x37
  | .lo12I | .tprelLo12I => opcode (insn l) ∈ [0x03, 0x07, 0x13, 0x1b, 0x67]
  | .lo12S | .tprelLo12S => opcode (insn l) ∈ [0x23, 0x27]
  | .pcrelLo12I => opcode (insn l) ∈ [0x03, 0x07, 0x13, 0x1b, 0x67] ∧ A = 0 ∧ ∃ h, hi = some h ∧ h.Pc ∧ v.S = h.P
  | .pcrelLo12S => opcode (insn l) ∈ [0x23, 0x27] ∧ A = 0 ∧ ∃ h, hi = some h ∧ h.Pc ∧ v.S = h.P
  | .tprelAdd => opcode (insn l) = 0x33 ∧ funct3 (insn l) = 0 ∧ (insn l).extractLsb' 25 7 = 0#7
  | .rvcBranch => (cinsn l).extractLsb' 0 2 = 1#2 ∧ ((cinsn l).extractLsb' 13 3 = 6#3 ∨ (cinsn l).extractLsb' 13 3 = 7#3)
  | .rvcJump => (cinsn l).extractLsb' 0 2 = 1#2 ∧ (cinsn l).extractLsb' 13 3 = 5#3
  | _ => True

/-- Bytes of the place a relocation needs. -/
def Ty.width (t : Ty) : Nat := if t = .tprelAdd then 4 else t.field.width

/-- A run of no-ops: `nop` (4 bytes) and `c.nop` (2 bytes). -/
inductive Nops : Bytes → Prop
  | nil : Nops []
  | nop {l} : Nops l → Nops (0x13#8 :: 0#8 :: 0#8 :: 0#8 :: l)
  | cnop {l} : Nops l → Nops (1#8 :: 0#8 :: l)

/-- `p` is the smallest power of two above `a`. -/
def PowAbove (a p : Nat) : Prop := ∃ k, p = 2 ^ k ∧ a < 2 ^ k ∧ 2 ^ k ≤ 2 * a

end Nature.Reloc.Rv
