/-!
# Model of the merging of common information entries

`/repo/src/ld/ld_elf_cie.c:14-61`.  Null pointers with a size other than zero, which are refused, cannot be
expressed: bytes and relocations are lists.
-/

namespace Nature.Cie

/-- `ld_elf_cie_relocation_t`. -/
structure Reloc where
  offset : Nat
  type : Nat
  addend : Int
  targetNamespace : Nat
  targetIndex : Nat
  deriving DecidableEq, Repr

/-- `ld_elf_cie_entry_t`. -/
structure Entry where
  bytes : List Nat
  relocs : List Reloc
  deriving DecidableEq, Repr

/-- `memcmp(…) != 0` for two arrays of the same size. -/
def bytesEqual : List Nat → List Nat → Bool
  | a :: as, b :: bs => a == b && bytesEqual as bs
  | _, _ => true

/-- The loop over relocations, ld_elf_cie.c:22-31. -/
def relocsEqual : List Reloc → List Reloc → Bool
  | a :: as, b :: bs =>
    if a.offset ≠ b.offset ∨ a.type ≠ b.type ∨ a.addend ≠ b.addend ∨
        a.targetNamespace ≠ b.targetNamespace ∨ a.targetIndex ≠ b.targetIndex then false
    else relocsEqual as bs
  | _, _ => true

/-- `ld_elf_cie_equal`, ld_elf_cie.c:14-33. -/
def equal (left right : Entry) : Bool :=
  if left.bytes.length ≠ right.bytes.length ∨ bytesEqual left.bytes right.bytes = false ∨
      left.relocs.length ≠ right.relocs.length then false
  else relocsEqual left.relocs right.relocs

/-- The inner loop, ld_elf_cie.c:52-57: the entries before, with their canonical indices. -/
def canonical (e : Entry) : List (Entry × Nat) → Nat → Nat
  | [], i => i
  | (x, c) :: rest, i => if equal e x then c else canonical e rest i

/-- The outer loop, ld_elf_cie.c:50-58. -/
def go : List Entry → List (Entry × Nat) → List (Entry × Nat)
  | [], seen => seen
  | e :: es, seen => go es (seen ++ [(e, canonical e seen seen.length)])

/-- `ld_elf_cie_deduplicate`, ld_elf_cie.c:35-61. -/
def deduplicate (entries : List Entry) : List Nat := (go entries []).map (·.2)

end Nature.Cie
