/-
What it means to merge the constants of several object files, said without reference to the linker.
-/
namespace Nature.Merge

/-- A section of an object file whose entities may be merged. -/
structure Sec where
  type : Nat
  flags : Nat
  entsize : Nat
  align : Nat
  data : List UInt8
  relocs : Nat := 0
  nobits : Bool := false
deriving DecidableEq, Repr

/-- The section consists of terminated strings (`SHF_STRINGS`, 0x20) and not of constants of one
size. -/
def Sec.strings (s : Sec) : Bool := s.flags.testBit 5

/-- The size of a character or a constant. -/
def Sec.unit (s : Sec) : Nat := if s.strings ∧ s.entsize = 0 then 1 else s.entsize

/-- The unit at `c` consists of zeros. -/
def Sec.nul (s : Sec) (c : Nat) : Prop := ∀ i < s.unit, s.data[c + i]? = some 0

/-- `s.Entity b n`: the `n` bytes from `b` are one constant, or one string with its terminator. -/
structure Sec.Entity (s : Sec) (b n : Nat) : Prop where
  begins : b % s.unit = 0
  whole : n % s.unit = 0
  some : 0 < n
  inside : b + n ≤ s.data.length
  constant : s.strings = false → n = s.unit
  after : s.strings = true → b = 0 ∨ s.nul (b - s.unit)
  ends : s.strings = true → s.nul (b + n - s.unit)
  first : s.strings = true → ∀ c, b ≤ c → c + s.unit < b + n → c % s.unit = 0 → ¬ s.nul c

/-- The compiler allows the section to be merged (`SHF_MERGE`, 0x10), and it has plain contents in the
file that no relocation changes. -/
structure Sec.Mergeable (s : Sec) : Prop where
  flag : s.flags.testBit 4 = true
  progbits : s.type = 1
  fixed : s.relocs = 0
  stored : s.nobits = false

/-- A section as a compiler writes it: whole units, a final terminator, an alignment that is a power
of two, no entity of 4 GiB or more. -/
structure Sec.Proper (s : Sec) : Prop where
  unit : 0 < s.unit
  whole : s.data.length % s.unit = 0
  ends : s.strings = true → s.data ≠ [] → s.nul (s.data.length - s.unit)
  align : ∃ k, s.align = 2 ^ k
  small : ∀ b n, s.Entity b n → n ≤ 4294967295

end Nature.Merge
