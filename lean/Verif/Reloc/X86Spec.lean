import Verif.Reloc.Bytes
/-!
# Relocations of amd64 (specification)

The table of the System V psABI: the number of each relocation, the value it computes, the size of the field and whether the field
is zero-extended, sign-extended or just truncated.  An amd64 relocation always fills whole little endian numbers.
-/
namespace Nature.Reloc.X86

/-- The relocations (those of thread-local sequences that are rewritten in pairs are in `X86RelaxSpec.lean`). -/
inductive Ty
  | none | r64 | pc32 | got32 | plt32 | gotpcrel | r32 | r32s | r16 | pc16 | r8 | pc8 | dtpoff64 | tpoff64 | dtpoff32 | gottpoff | tpoff32
  | pc64 | gotoff64 | gotpc32 | got64 | gotpcrel64 | gotpc64 | pltoff64 | size32 | size64 | gotpcrelx | rexGotpcrelx
deriving DecidableEq, Repr

/-- Their numbers. -/
def Ty.code : Ty → Nat
  | .none => 0 | .r64 => 1 | .pc32 => 2 | .got32 => 3 | .plt32 => 4 | .gotpcrel => 9 | .r32 => 10 | .r32s => 11 | .r16 => 12 | .pc16 => 13
  | .r8 => 14 | .pc8 => 15 | .dtpoff64 => 17 | .tpoff64 => 18 | .dtpoff32 => 21 | .gottpoff => 22 | .tpoff32 => 23 | .pc64 => 24
  | .gotoff64 => 25 | .gotpc32 => 26 | .got64 => 27 | .gotpcrel64 => 28 | .gotpc64 => 29 | .pltoff64 => 31 | .size32 => 32
  | .size64 => 33 | .gotpcrelx => 41 | .rexGotpcrelx => 42

/-- The value a relocation computes.  In a static link a procedure is called directly: L is S. -/
def Ty.value (t : Ty) (v : Vals) (A : Int) : Int :=
  match t with
  | .none => 0
  | .r64 | .r32 | .r32s | .r16 | .r8 => v.S + A
  | .pc64 | .pc32 | .pc16 | .pc8 | .plt32 => v.S + A - v.P
  | .got32 | .got64 => v.G + A - v.GOT
  | .gotpcrel | .gotpcrelx | .rexGotpcrelx | .gottpoff | .gotpcrel64 => v.G + A - v.P
  | .gotpc32 | .gotpc64 => v.GOT + A - v.P
  | .gotoff64 | .pltoff64 => v.S + A - v.GOT
  | .size32 | .size64 => v.Z + A
  | .tpoff32 | .tpoff64 => v.S + A - v.TP
  | .dtpoff32 | .dtpoff64 => v.S + A - v.TLS

/-- Bytes of the field. -/
def Ty.width : Ty → Nat
  | .none => 0
  | .r8 | .pc8 => 1
  | .r16 | .pc16 => 2
  | .r64 | .dtpoff64 | .tpoff64 | .pc64 | .gotoff64 | .got64 | .gotpcrel64 | .gotpc64 | .pltoff64 | .size64 => 8
  | _ => 4

/-- The range: `R_X86_64_32` is zero-extended by its users, the other 32-bit ones are sign-extended; 8-bit and 16-bit data may be
read either way; 64-bit values wrap. -/
def Ty.Fits (t : Ty) (x : Int) : Prop :=
  match t with
  | .none => True
  | .r32 => 0 ≤ x ∧ x < 2 ^ 32
  | .r16 => -2 ^ 15 ≤ x ∧ x < 2 ^ 16
  | .r8 => -2 ^ 7 ≤ x ∧ x < 2 ^ 8
  | .pc16 => -2 ^ 15 ≤ x ∧ x < 2 ^ 15
  | .pc8 => -2 ^ 7 ≤ x ∧ x < 2 ^ 7
  | _ => if t.width = 8 then True else -2 ^ 31 ≤ x ∧ x < 2 ^ 31

/-- The patched place shows the value, nothing behind the field changed. -/
structure Ty.Shows (t : Ty) (old new : Bytes) (x : Int) : Prop where
  number : (leNat t.width new : Int) = x % 2 ^ (8 * t.width)
  rest : new.drop t.width = old.drop t.width
  size : new.length = old.length

end Nature.Reloc.X86
