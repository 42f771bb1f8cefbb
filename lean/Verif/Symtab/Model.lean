import Verif.Symtab.Spec

/-!
# Model of `ld_elf_symtab_build`

`/repo/src/ld/ld_elf_symtab.c:18-168`, the whole file apart from the texts of errors.  Allocation is
assumed to succeed, and the pointers to the arrays to be valid.  A write outside a buffer, and the use
of a null name, is the outcome `outside`.
-/

namespace Nature.Symtab

/-- `SIZE_MAX`. -/
def sizeMax : Nat := 2 ^ 64 - 1

/-- `UINT32_MAX`. -/
def u32Max : Nat := 2 ^ 32 - 1

/-- `ld_elf_symtab_write_u16`, ld_elf_symtab.c:18-21: the bytes written. -/
def u16 (v : Nat) : List Nat := [v % 256, (v >>> 8) % 256]

/-- `ld_elf_symtab_write_u32`, ld_elf_symtab.c:23-28. -/
def u32 (v : Nat) : List Nat := [v % 256, (v >>> 8) % 256, (v >>> 16) % 256, (v >>> 24) % 256]

/-- `ld_elf_symtab_write_u64`, ld_elf_symtab.c:30-33. -/
def u64 (v : Nat) : List Nat := u32 (v % 2 ^ 32) ++ u32 ((v >>> 32) % 2 ^ 32)

/-- `ld_elf_symtab_result_t` other than success, with `*error_entry_index`. -/
inductive Err where
  | invalidArgument (i : Nat)
  | countOverflow
  | sizeOverflow
  | stringOverflow (i : Nat)
  | invalidInfo (i : Nat)
  | outside
  deriving DecidableEq, Repr

/-- `ld_elf_symtab_add_size`, ld_elf_symtab.c:35-40. -/
def addSize (left right : Nat) : Option Nat :=
  if left > sizeMax - right then none else some (left + right)

/-- `ld_elf_symtab_measure_strings`, ld_elf_symtab.c:53-80. -/
def measure : List Entry → Nat → Nat → Except Err Nat
  | [], _, size => .ok size
  | e :: es, i, size =>
    match e.name with
    | none => .error (.invalidArgument i)
    | some n =>
      if n = [] then measure es (i + 1) size
      else if n.length = sizeMax then .error (.stringOverflow i)
      else
        match addSize size (n.length + 1) with
        | none => .error (.stringOverflow i)
        | some next =>
          if next > u32Max then .error (.stringOverflow i) else measure es (i + 1) next

/-- Bytes written into a buffer, which must be inside it. -/
def poke (buf : List Nat) (off : Nat) (bytes : List Nat) : Except Err (List Nat) :=
  if off + bytes.length ≤ buf.length then
    .ok (buf.take off ++ bytes ++ buf.drop (off + bytes.length))
  else .error .outside

/-- The writes into `table->symbols`, ld_elf_symtab.c:100-107. -/
def writeSym (symbols : List Nat) (k nameOffset : Nat) (e : Entry) : Except Err (List Nat) := do
  let at' := k * 24
  let b ← poke symbols at' (u32 nameOffset)
  let b ← poke b (at' + 4) [((e.binding <<< 4) ||| e.type) % 256]
  let b ← poke b (at' + 5) [e.other]
  let b ← poke b (at' + 6) (u16 e.sectionIndex)
  let b ← poke b (at' + 8) (u64 e.value)
  poke b (at' + 16) (u64 e.size)

/-- `table->symbols`, `table->strings` and `*string_cursor`. -/
structure State where
  symbols : List Nat
  strings : List Nat
  cursor : Nat
  deriving DecidableEq, Repr

/-- The name of a symbol, ld_elf_symtab.c:93-99: its offset, and the string table after it. -/
def writeName (s : State) (e : Entry) : Except Err (Nat × State) :=
  match e.name with
  | none => .error .outside
  | some n =>
    if n = [] then .ok (0, s)
    else
      match poke s.strings s.cursor (n ++ [0]) with
      | .error err => .error err
      | .ok strings =>
        .ok (s.cursor % 2 ^ 32, { s with strings := strings, cursor := s.cursor + (n.length + 1) })

/-- `ld_elf_symtab_write_entries`, ld_elf_symtab.c:82-110; `i` counts the input, `k` the symbols. -/
def writeEntries : List Entry → Nat → Nat → State → Except Err State
  | [], _, _, s => .ok s
  | e :: es, i, k, s =>
    if e.binding > 15 ∨ e.type > 15 then .error (.invalidInfo i)
    else
      match writeName s e with
      | .error err => .error err
      | .ok (nameOffset, s) =>
        match writeSym s.symbols k nameOffset e with
        | .error err => .error err
        | .ok symbols => writeEntries es (i + 1) (k + 1) { s with symbols := symbols }

/-- `ld_elf_symtab_t`. -/
structure Table where
  symbols : List Nat
  strings : List Nat
  symbolCount : Nat
  firstGlobal : Nat
  deriving DecidableEq, Repr

/-- `ld_elf_symtab_build`, ld_elf_symtab.c:112-168. -/
def build (locals globals : List Entry) : Except Err Table :=
  if locals.length > u32Max - 1 ∨ globals.length > sizeMax - 1 ∨
      locals.length > sizeMax - 1 - globals.length then .error .countOverflow
  else
    let symbolCount := locals.length + globals.length + 1
    if symbolCount > sizeMax / 24 then .error .sizeOverflow
    else
      match measure locals 0 1 with
      | .error err => .error err
      | .ok size =>
        match measure globals locals.length size with
        | .error err => .error err
        | .ok size =>
          let s : State := ⟨List.replicate (symbolCount * 24) 0, List.replicate size 0, 1⟩
          match writeEntries locals 0 1 s with
          | .error err => .error err
          | .ok s =>
            match writeEntries globals locals.length (1 + locals.length) s with
            | .error err => .error err
            | .ok s => .ok ⟨s.symbols, s.strings, symbolCount, (locals.length % 2 ^ 32 + 1) % 2 ^ 32⟩

end Nature.Symtab
