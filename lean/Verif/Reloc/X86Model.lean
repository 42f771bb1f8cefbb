import Verif.Reloc.Int
/-!
# Relocations of amd64 (model)

Model of the amd64 part of `ld_elf_relocation_supported` and `ld_elf_relocation_write_width` and of `ld_elf_reloc_apply_x86_64`,
src/ld/ld_elf_reloc.c.  A relocation error is `none`; the messages are left out, as are null arguments and the choice of the
architecture.
-/
namespace Nature.Reloc.X86

/-- The amd64 part of `ld_elf_relocation_supported`, ld_elf_reloc.c:722-760. -/
def supported (type : Nat) : Bool :=
  type ∈ [0, 1, 2, 3, 4, 9, 10, 11, 12, 13, 14, 15, 17, 18, 19, 20, 21, 22, 23, 24, 25, 26, 27, 28, 29, 31, 32, 33, 34, 35, 41, 42]

/-- amd64 part of `ld_elf_relocation_write_width`, ld_elf_reloc.c:984-1022 and 1057; `none` for unsupported types (`SIZE_MAX`). -/
def writeWidth (type : Nat) : Option Nat :=
  if !supported type then none
  else if type = 0 then some 0
  else if type = 14 ∨ type = 15 then some 1
  else if type = 12 ∨ type = 13 then some 2
  else if type ∈ [1, 17, 18, 24, 25, 27, 28, 29, 31, 33] then some 8
  else if type = 35 then some 0
  else some 4

/-- Store of an `n`-byte value, `ld_elf_reloc_write_u64/u32/u16` or `place[0] = …` with the casts of ld_elf_reloc.c:2446-2717. -/
def store (n : Nat) (l : Bytes) (d : Int) : Bytes :=
  match n with
  | 8 => writeU64 l (BitVec.ofInt 64 d)
  | 4 => writeU32 l (BitVec.ofInt 32 d)
  | 2 => writeU16 l (BitVec.ofInt 16 d)
  | _ => writeU8 l (BitVec.ofInt 8 d)

/-- `ld_elf_reloc_expression_signed` and store, ld_elf_reloc.c:2508-2645 and 2670-2711. -/
def relative (base : Nat) (A : Int) (sub : Nat) (n : Nat) (l : Bytes) : Option Bytes :=
  (expressionSigned base A sub (8 * n)).bind fun delta => some (store n l delta)

/-- `ld_elf_reloc_integer_add`, `…_to_signed` and store, ld_elf_reloc.c:2476-2486, 2498-2508 and 2646-2669. -/
def absSigned (base : Nat) (A : Int) (n : Nat) (l : Bytes) : Option Bytes :=
  ((integerAdd base A).toSigned (8 * n)).bind fun delta => some (store n l delta)

/-- `ld_elf_reloc_integer_add`, `…_to_unsigned` and store, ld_elf_reloc.c:2465-2475 and 2487-2497. -/
def absUnsigned (base : Nat) (A : Int) (n : Nat) (l : Bytes) : Option Bytes :=
  ((integerAdd base A).toUnsigned (8 * n)).bind fun target => some (store n l target)

/-- `ld_elf_reloc_apply_x86_64`, ld_elf_reloc.c:2446-2717. -/
def applyX86 (type : Nat) (v : Vals) (A : Int) (l : Bytes) : Option Bytes :=
  match type with
  | 0 => some l
  | 1 => some (writeU64 l (addModulo v.S A))
  | 10 => absUnsigned v.S A 4 l
  | 11 => absSigned v.S A 4 l
  | 12 => absUnsigned v.S A 2 l
  | 14 => absSigned v.S A 1 l
  | 13 => relative v.S A v.P 2 l
  | 15 => relative v.S A v.P 1 l
  | 2 => relative v.S A v.P 4 l
  | 4 => relative v.S A v.P 4 l
  | 24 => relative v.S A v.P 8 l
  | 3 => relative v.G A v.GOT 4 l
  | 27 => relative v.G A v.GOT 8 l
  | 9 => relative v.G A v.P 4 l
  | 41 => relative v.G A v.P 4 l
  | 42 => relative v.G A v.P 4 l
  | 22 => relative v.G A v.P 4 l
  | 28 => relative v.G A v.P 8 l
  | 26 => relative v.GOT A v.P 4 l
  | 29 => relative v.GOT A v.P 8 l
  | 25 => relative v.S A v.GOT 8 l
  | 31 => relative v.S A v.GOT 8 l
  | 32 => absSigned v.Z A 4 l
  | 33 => absSigned v.Z A 8 l
  | 23 => relative v.S A v.TP 4 l
  | 18 => relative v.S A v.TP 8 l
  | 21 => relative v.S A v.TLS 4 l
  | 17 => relative v.S A v.TLS 8 l
  | _ => none

/-- `ld_elf_relocation_apply` for amd64: type and size are checked first, ld_elf_reloc.c:3453-3490 with `ld_elf_relocation_check_write`, 1831-1854. -/
def apply (type : Nat) (v : Vals) (A : Int) (l : Bytes) : Option Bytes :=
  (writeWidth type).bind fun width => if l.length < width then none else applyX86 type v A l

end Nature.Reloc.X86
