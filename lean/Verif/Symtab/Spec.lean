/-!
# Reading a symbol table of ELF64

A symbol and its record in a file, as the ELF specification lays it out (`Elf64_Sym`, 24 bytes,
little endian).
-/

namespace Nature.Symtab

/-- A symbol that is to be written, `ld_elf_symtab_entry_t`; the name is without its final zero,
`none` is a null pointer. -/
structure Entry where
  name : Option (List Nat)
  binding : Nat
  type : Nat
  other : Nat
  sectionIndex : Nat
  value : Nat
  size : Nat
  deriving DecidableEq, Repr

namespace Spec

/-- The number in the first `n` bytes of a list, lowest byte first. -/
def word : Nat → List Nat → Nat
  | 0, _ => 0
  | _ + 1, [] => 0
  | n + 1, b :: bs => b + 256 * word n bs

/-- The `k`-th symbol of a table with the given string table. -/
def read (symbols strings : List Nat) (k : Nat) : Entry :=
  let r := symbols.drop (24 * k)
  ⟨some ((strings.drop (word 4 r)).takeWhile (· ≠ 0)), r.getD 4 0 / 16, r.getD 4 0 % 16, r.getD 5 0,
    word 2 (r.drop 6), word 8 (r.drop 8), word 8 (r.drop 16)⟩

/-- The bytes of a name are not zero and the numbers fit the types of their fields in C. -/
structure Fits (e : Entry) : Prop where
  name : ∀ n, e.name = some n → ∀ b ∈ n, 0 < b ∧ b < 256
  binding : e.binding < 256
  type : e.type < 256
  other : e.other < 256
  sectionIndex : e.sectionIndex < 2 ^ 16
  value : e.value < 2 ^ 64
  size : e.size < 2 ^ 64

/-- The bytes a list of symbols needs in the string table; symbols without a name need none. -/
def room : List Entry → Nat
  | [] => 0
  | e :: es =>
    (match e.name with
      | none => 0
      | some [] => 0
      | some (b :: n) => (b :: n).length + 1) + room es

end Spec

end Nature.Symtab
