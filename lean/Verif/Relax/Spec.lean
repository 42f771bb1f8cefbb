/-
What the alignment directives of a riscv64 section ask for, said without reference to the linker.

The assembler leaves at each directive as many bytes of no-operations as could be needed.  The linker
removes those that are not, so that the code after them is aligned.
-/
namespace Nature.Relax

/-- One `R_RISCV_ALIGN`: `addend` bytes of padding begin at `offset`.  `source` is its number. -/
structure Align where
  offset : Nat
  addend : Int
  source : Nat

/-- The `w` bytes at `x` contain no padding, and `x` is not in the middle of padding. -/
def Between (as : List Align) (x w : Nat) : Prop :=
  ∀ a ∈ as, 0 < a.addend → (a.offset : Int) + a.addend ≤ x ∨ x + w ≤ a.offset

/-- A sequence of no-operations: `addi x0, x0, 0` and, with compressed instructions, `c.nop`. -/
inductive Nops (rvc : Bool) : List UInt8 → Prop
  | nil : Nops rvc []
  | full {l : List UInt8} : Nops rvc l → Nops rvc (0x13 :: 0 :: 0 :: 0 :: l)
  | compressed {l : List UInt8} : rvc = true → Nops rvc l → Nops rvc (0x01 :: 0 :: l)

/-- `n` is the smallest power of two above `pad`: what a padding of `pad` bytes stands for. -/
structure Bound (pad n : Nat) : Prop where
  power : ∃ k, n = 2 ^ k
  above : pad < n
  least : n ≤ 2 * pad

/-- The size of the smallest instruction. -/
def step (rvc : Bool) : Nat := if rvc then 2 else 4

/-- A section as an assembler writes it. -/
structure Proper (rvc : Bool) (inp : List UInt8) (as : List Align) : Prop where
  inside : ∀ a ∈ as, 0 ≤ a.addend ∧ a.offset + a.addend ≤ inp.length
  nops : ∀ a ∈ as, Nops rvc ((inp.drop a.offset).take a.addend.toNat)
  /-- enough for an alignment that is a power of two, given that instructions are where they may be -/
  enough : ∀ a ∈ as, ∃ k, a.addend + step rvc = 2 ^ k
  steps : ∀ a ∈ as, a.offset % step rvc = 0
  apart : as.Pairwise fun a b =>
    (a.offset : Int) + a.addend ≤ b.offset ∨ (b.offset : Int) + b.addend ≤ a.offset

end Nature.Relax
