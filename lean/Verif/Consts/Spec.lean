import Verif.Consts.Model
namespace Nature.Consts

/-- The bytes a constant stands for. -/
def bytes : Const → Bytes
  | .str s => s
  | .f64 b => le 8 b.toNat
  | .f32 b => le 4 b.toNat

/-- What fmov with an immediate of eight bits puts in a register (VFPExpandImm of the Arm Architecture Reference Manual, for 64
bits): the sign; bit 6 inverted, bit 6 eight times and bits 5 and 4 as the exponent; bits 3 to 0 and 48 zeros as the fraction. -/
def vfpExpandImm (imm8 : Nat) : Nat :=
  let b6 := imm8 / 64 % 2
  let exp := (1 - b6) * 2 ^ 10 + (if b6 = 1 then 255 else 0) * 4 + imm8 / 16 % 4
  imm8 / 128 % 2 * 2 ^ 63 + exp * 2 ^ 52 + imm8 % 16 * 2 ^ 48

end Nature.Consts
