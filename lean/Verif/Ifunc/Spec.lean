/-!
# What a stub does

A stub is 16 bytes of code.  It jumps to the address stored in a slot in memory; the specification decodes
the instructions by the manuals of the processors and says which slot that is.
-/

namespace Nature.Ifunc

/-- Processors. -/
inductive Arch where
  | amd64 | arm64 | riscv64
  deriving DecidableEq, Repr

namespace Spec

/-- Four bytes, the least first. -/
def word (b0 b1 b2 b3 : Nat) : Nat := b0 + 2 ^ 8 * b1 + 2 ^ 16 * b2 + 2 ^ 24 * b3

/-- A field of `n` bits from bit `k` on. -/
def field (w k n : Nat) : Nat := w / 2 ^ k % 2 ^ n

/-- A number of `n` bits with its sign. -/
def signed (v n : Nat) : Int := if v < 2 ^ (n - 1) then v else (v : Int) - 2 ^ n

/-- An address: 64 bits. -/
def address (v : Int) : Nat := (v % 2 ^ 64).toNat

/-- amd64: `endbr64`, then `jmp [rip + disp32]`, where `rip` is the address after the instruction. -/
def slotAmd64 (entry : Nat) : List Nat → Option Nat
  | [0xf3, 0x0f, 0x1e, 0xfa, 0xff, 0x25, d0, d1, d2, d3, _, _, _, _, _, _] =>
    some (address (entry + 10 + signed (word d0 d1 d2 d3) 32))
  | _ => none

/-- arm64: `adrp xa, page`, `ldr xb, [xa, #offset]`, `br xb`.  `adrp` has bit 31 set and 0b10000 in bits 24 to
28; `ldr` of 64 bits with an unsigned offset, in units of 8, has 0x3e5 from bit 22 on; `br` is
0xd61f0000 with the register in bits 5 to 9. -/
def slotArm64 (entry : Nat) : List Nat → Option Nat
  | [a0, a1, a2, a3, b0, b1, b2, b3, c0, c1, c2, c3, _, _, _, _] =>
    let adrp := word a0 a1 a2 a3
    let ldr := word b0 b1 b2 b3
    let br := word c0 c1 c2 c3
    if field adrp 31 1 = 1 ∧ field adrp 24 5 = 0x10 ∧ field ldr 22 10 = 0x3e5 ∧
        field ldr 5 5 = field adrp 0 5 ∧ br = 0xd61f0000 + 2 ^ 5 * field ldr 0 5 then
      let page : Int := (entry / 2 ^ 12 * 2 ^ 12 : Nat) +
        signed (field adrp 5 19 * 4 + field adrp 29 2) 21 * 2 ^ 12
      some (address (address page + field ldr 10 12 * 8))
    else none
  | _ => none

/-- riscv64: `auipc ra, high`, `ld rb, low(ra)`, `jalr rc, 0(rb)`. -/
def slotRiscv64 (entry : Nat) : List Nat → Option Nat
  | [a0, a1, a2, a3, b0, b1, b2, b3, c0, c1, c2, c3, _, _, _, _] =>
    let auipc := word a0 a1 a2 a3
    let ld := word b0 b1 b2 b3
    let jalr := word c0 c1 c2 c3
    if field auipc 0 7 = 0x17 ∧ field auipc 7 5 ≠ 0 ∧ field ld 0 7 = 3 ∧ field ld 12 3 = 3 ∧
        field ld 15 5 = field auipc 7 5 ∧ field ld 7 5 ≠ 0 ∧ field jalr 0 7 = 0x67 ∧ field jalr 12 3 = 0 ∧
        field jalr 15 5 = field ld 7 5 ∧ field jalr 20 12 = 0 then
      some (address (address (entry + signed (field auipc 12 20 * 2 ^ 12) 32) + signed (field ld 20 12) 12))
    else none
  | _ => none

/-- The slot from which a stub at an address takes the target of its jump. -/
def slot (arch : Arch) (entry : Nat) (code : List Nat) : Option Nat :=
  match arch with
  | .amd64 => slotAmd64 entry code
  | .arm64 => slotArm64 entry code
  | .riscv64 => slotRiscv64 entry code

/-- A stub can reach a slot: the distance fits the instructions, which on arm64 count in pages. -/
def Reaches (arch : Arch) (entry got : Nat) : Prop :=
  match arch with
  | .amd64 => entry + 10 < 2 ^ 64 ∧ -(2 ^ 31 : Int) ≤ (got : Int) - (entry + 10) ∧
      (got : Int) - (entry + 10) < 2 ^ 31
  | .arm64 => -(2 ^ 20 : Int) ≤ ((got / 2 ^ 12 : Nat) : Int) - (entry / 2 ^ 12 : Nat) ∧
      ((got / 2 ^ 12 : Nat) : Int) - (entry / 2 ^ 12 : Nat) < 2 ^ 20
  | .riscv64 => -(2 ^ 31 : Int) ≤ (got : Int) - entry ∧ (got : Int) - entry < 2 ^ 31 - 2 ^ 11

/-- Where instructions and slots may be. -/
def Placed (arch : Arch) (entry got : Nat) : Prop :=
  match arch with
  | .amd64 => True
  | _ => entry % 4 = 0 ∧ got % 8 = 0

end Spec

end Nature.Ifunc
