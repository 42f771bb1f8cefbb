/-!
# The dynamic section as the start-up code of a program reads it

From the ELF specification: pairs of a tag and a value, of 8 bytes each, up to the tag zero; and relocations
of 24 bytes: the offset, the type in the low half and the symbol in the high half of a word, and the addend,
which is signed.
-/

namespace Nature.Dynamic.Spec

/-- The number in eight bytes, the least first. -/
def u64 (b0 b1 b2 b3 b4 b5 b6 b7 : Nat) : Nat :=
  b0 + 2 ^ 8 * (b1 + 2 ^ 8 * (b2 + 2 ^ 8 * (b3 + 2 ^ 8 * (b4 + 2 ^ 8 * (b5 + 2 ^ 8 * (b6 + 2 ^ 8 * b7))))))

/-- Tags and values; `none` if the end is missing. -/
def tags : List Nat → Option (List (Nat × Nat))
  | a0 :: a1 :: a2 :: a3 :: a4 :: a5 :: a6 :: a7 :: b0 :: b1 :: b2 :: b3 :: b4 :: b5 :: b6 :: b7 :: rest =>
    if u64 a0 a1 a2 a3 a4 a5 a6 a7 = 0 then some []
    else (tags rest).map ((u64 a0 a1 a2 a3 a4 a5 a6 a7, u64 b0 b1 b2 b3 b4 b5 b6 b7) :: ·)
  | _ => none

/-- A relocation: offset, symbol, type and addend. -/
structure Rela where
  offset : Nat
  symbol : Nat
  type : Nat
  addend : Int
  deriving DecidableEq, Repr

/-- A number of 64 bits with its sign. -/
def signed (v : Nat) : Int := if v < 2 ^ 63 then v else (v : Int) - 2 ^ 64

/-- Relocations; `none` if the size is no multiple of 24. -/
def relas : List Nat → Option (List Rela)
  | [] => some []
  | a0 :: a1 :: a2 :: a3 :: a4 :: a5 :: a6 :: a7 :: b0 :: b1 :: b2 :: b3 :: b4 :: b5 :: b6 :: b7 ::
      c0 :: c1 :: c2 :: c3 :: c4 :: c5 :: c6 :: c7 :: rest =>
    (relas rest).map (⟨u64 a0 a1 a2 a3 a4 a5 a6 a7, u64 b0 b1 b2 b3 b4 b5 b6 b7 / 2 ^ 32,
      u64 b0 b1 b2 b3 b4 b5 b6 b7 % 2 ^ 32, signed (u64 c0 c1 c2 c3 c4 c5 c6 c7)⟩ :: ·)
  | _ => none

end Nature.Dynamic.Spec
