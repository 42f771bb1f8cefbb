/-!
# Bytes at the place of a relocation (specification)

What the processor or a program finds at the place: little endian numbers and 32-bit or 16-bit instructions.  Nothing here
refers to the linker.
-/
namespace Nature.Reloc

abbrev Bytes := List (BitVec 8)

/-- The number in the first `n` bytes, little endian. -/
def leNat : Nat → Bytes → Nat
  | 0, _ => 0
  | _ + 1, [] => 0
  | n + 1, b :: l => b.toNat + 256 * leNat n l

/-- A number of `n` bytes read as two's complement. -/
def signedNat (n : Nat) (x : Nat) : Int := if 2 * x < 2 ^ (8 * n) then x else (x : Int) - 2 ^ (8 * n)

/-- The 32-bit instruction the place starts with. -/
def insn (l : Bytes) : BitVec 32 := BitVec.ofNat 32 (leNat 4 l)

/-- The 16-bit instruction the place starts with. -/
def cinsn (l : Bytes) : BitVec 16 := BitVec.ofNat 16 (leNat 2 l)

/-- Addresses and sizes a relocation refers to; every one is a 64-bit number. -/
structure Vals where
  /-- address of the place -/
  P : Nat
  /-- address of the symbol -/
  S : Nat
  /-- address of the symbol's entry in the global offset table -/
  G : Nat
  /-- address of the global offset table -/
  GOT : Nat
  /-- size of the symbol -/
  Z : Nat
  /-- start of the thread-local block -/
  TLS : Nat
  /-- thread pointer -/
  TP : Nat
  /-- image base -/
  B : Nat

/-- All of them are 64-bit. -/
structure Vals.Wide (v : Vals) : Prop where
  P : v.P < 2 ^ 64
  S : v.S < 2 ^ 64
  G : v.G < 2 ^ 64
  GOT : v.GOT < 2 ^ 64
  Z : v.Z < 2 ^ 64
  TLS : v.TLS < 2 ^ 64
  TP : v.TP < 2 ^ 64
  B : v.B < 2 ^ 64

/-- An addend is a signed 64-bit number. -/
def Wide (A : Int) : Prop := -2 ^ 63 ≤ A ∧ A < 2 ^ 63

end Nature.Reloc
