/-!
# Model of the dynamic section

`/repo/src/ld/ld_elf_dynamic.c:8-199` without the tables of a program without symbols.  The output is exactly
of the size asked for, so it is a list that is appended to.
-/

namespace Nature.Dynamic

/-- `ld_elf_dynamic_write_u32`, ld_elf_dynamic.c:8-13. -/
def writeU32 (v : Nat) : List Nat := [v % 256, v / 2 ^ 8 % 256, v / 2 ^ 16 % 256, v / 2 ^ 24 % 256]

/-- `ld_elf_dynamic_write_u64`, ld_elf_dynamic.c:15-18. -/
def writeU64 (v : Nat) : List Nat := writeU32 (v % 2 ^ 32) ++ writeU32 (v / 2 ^ 32 % 2 ^ 32)

/-- `ld_elf_dynamic_relocation_t`; kinds are 0 (relative), 1 (ordinary) and 2 (the value is what a function
of the program returns). -/
structure Reloc where
  offset : Nat
  symbol : Nat
  type : Nat
  addend : Int
  kind : Nat
  deriving DecidableEq, Repr

/-- `ld_elf_dynamic_compare_relocations`, ld_elf_dynamic.c:46-56. -/
def compare (a b : Reloc) : Int :=
  if a.kind ≠ b.kind then (if a.kind < b.kind then -1 else 1)
  else if a.symbol ≠ b.symbol then (if a.symbol < b.symbol then -1 else 1)
  else if a.offset ≠ b.offset then (if a.offset < b.offset then -1 else 1)
  else if a.type ≠ b.type then (if a.type < b.type then -1 else 1)
  else if a.addend ≠ b.addend then (if a.addend < b.addend then -1 else 1)
  else 0

/-- What `qsort` promises, for `ld_elf_dynamic_sort_relocations`, ld_elf_dynamic.c:58-63. -/
structure Sorted (relocs sorted : List Reloc) : Prop where
  perm : sorted.Perm relocs
  ordered : sorted.Pairwise fun a b => compare a b ≤ 0

/-- `ld_elf_dynamic_encode_relocations`, ld_elf_dynamic.c:65-87. -/
def encodeRelocs : List Reloc → List Nat
  | [] => []
  | r :: rs =>
    writeU64 r.offset ++ writeU64 (r.symbol * 2 ^ 32 + r.type % 2 ^ 32) ++
      writeU64 (r.addend % 2 ^ 64).toNat ++ encodeRelocs rs

/-- `ld_elf_dynamic_metadata_t`. -/
structure Meta where
  hasInit : Bool
  hasFini : Bool
  hasInitArray : Bool
  hasFiniArray : Bool
  hasRela : Bool
  hasStaticTls : Bool
  init : Nat
  fini : Nat
  initArray : Nat
  initArraySize : Nat
  finiArray : Nat
  finiArraySize : Nat
  rela : Nat
  relaSize : Nat
  hash : Nat
  gnuHash : Nat
  dynsym : Nat
  dynstr : Nat
  dynstrSize : Nat

/-- `ld_elf_dynamic_entry_count` and `ld_elf_dynamic_metadata_size`, ld_elf_dynamic.c:124-146. -/
def size (m : Meta) : Nat :=
  let count := 9
  let count := if m.hasInit then count + 1 else count
  let count := if m.hasFini then count + 1 else count
  let count := if m.hasInitArray then count + 2 else count
  let count := if m.hasFiniArray then count + 2 else count
  let count := if m.hasRela then count + 3 else count
  let count := if m.hasStaticTls then count + 1 else count
  count * 16

/-- `ld_elf_dynamic_write_entry`, ld_elf_dynamic.c:148-153. -/
def writeEntry (tag value : Nat) : List Nat := writeU64 tag ++ writeU64 value

/-- `ld_elf_dynamic_encode_metadata`, ld_elf_dynamic.c:155-211, before the check of the size. -/
def encode (m : Meta) : List Nat :=
  (if m.hasInit then writeEntry 12 m.init else []) ++
  (if m.hasFini then writeEntry 13 m.fini else []) ++
  (if m.hasInitArray then writeEntry 25 m.initArray ++ writeEntry 27 m.initArraySize else []) ++
  (if m.hasFiniArray then writeEntry 26 m.finiArray ++ writeEntry 28 m.finiArraySize else []) ++
  (if m.hasRela then writeEntry 7 m.rela ++ writeEntry 8 m.relaSize ++ writeEntry 9 24 else []) ++
  writeEntry 4 m.hash ++ writeEntry 0x6ffffef5 m.gnuHash ++ writeEntry 6 m.dynsym ++ writeEntry 11 24 ++
  writeEntry 5 m.dynstr ++ writeEntry 10 m.dynstrSize ++
  (if m.hasStaticTls then writeEntry 30 0x10 else []) ++
  writeEntry 0x6ffffffb 0x08000000 ++ writeEntry 21 0 ++ writeEntry 0 0

end Nature.Dynamic
