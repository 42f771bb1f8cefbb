/-!
# Model of the reading of archives

`/repo/src/ld/ld_elf_archive.c` and the function that walks over an archive,
`/repo/src/ld/ld_elf_input.c:1604-1725`.  A byte is a natural number; the file is a list of them.
A part of the file is looked at through `slice`, which gives the outcome `fault` when it does
not lie in the file, so that a read outside is visible.  Allocation is assumed to succeed.
-/

namespace Nature.Archive

/-- `ld_elf_archive_result_t`, ld_elf_archive.h:14-32, without `OK`; the duplicate name table of
ld_elf_input.c:1634; a read outside the file; and a walk that does not end. -/
inductive Err where
  | finished | truncatedHeader | invalidDelimiter | invalidSize | memberOutOfRange
  | missingAlignmentByte | thinBsdExtendedName | emptyName | nameTableRequired
  | invalidNameOffset | nameOffsetInEntry | unterminatedName | nameContainsNul
  | duplicateTable | fault | endless
  deriving DecidableEq, Repr

/-- The bytes from `off` to `off + len`, as `bytes + header_offset` (ld_elf_archive.c:94) and
`archive_bytes + record->payload_offset` (ld_elf_archive.c:226) make them readable. -/
def slice (bytes : List Nat) (off len : Nat) : Except Err (List Nat) :=
  if off + len ≤ bytes.length then .ok ((bytes.drop off).take len) else .error .fault

/-- The loop that lowers `last` or `length` over spaces, ld_elf_archive.c:22-23 and 38-42. -/
def rtrim (f : List Nat) : List Nat := (f.reverse.dropWhile (· == 32)).reverse

/-- The loop over the digits, ld_elf_archive.c:26-33; `UINT64_MAX` is 2^64 - 1. -/
def digits : Nat → List Nat → Option Nat
  | result, [] => some result
  | result, c :: rest =>
    if c < 48 ∨ c > 57 then none
    else if result > (2 ^ 64 - 1 - (c - 48)) / 10 then none
    else digits (result * 10 + (c - 48)) rest

/-- `ld_elf_archive_decimal`, ld_elf_archive.c:17-36. -/
def decimal (field : List Nat) : Option Nat :=
  let f := rtrim (field.dropWhile (· == 32))
  if f = [] then none else digits 0 f

/-- `ld_elf_archive_member_kind_t`, ld_elf_archive.h:34-38. -/
inductive Kind where
  | regular | symbolTable | nameTable
  deriving DecidableEq, Repr

/-- `__.SYMDEF`, ld_elf_archive.c:70. -/
def symdef : List Nat := [95, 95, 46, 83, 89, 77, 68, 69, 70]

/-- `/SYM64/`, ld_elf_archive.c:69. -/
def sym64 : List Nat := [47, 83, 89, 77, 54, 52, 47]

/-- `ld_elf_archive_member_kind`, ld_elf_archive.c:62-74. -/
def memberKind (nameField : List Nat) : Kind :=
  let name := rtrim nameField
  if name = [47, 47] then .nameTable
  else if name = [47] ∨ name = sym64 ∨ symdef.isPrefixOf name then .symbolTable
  else .regular

/-- `field_length >= 3U && header[0] == '#' && header[1] == '1' && header[2] == '/'`,
ld_elf_archive.c:112-113 and 211-212. -/
def isBsd (name : List Nat) : Bool := [35, 49, 47].isPrefixOf name

/-- `ld_elf_archive_record_t`, ld_elf_archive.h:40-48; `name_field` is the field itself. -/
structure Record where
  nameField : List Nat
  payloadOffset : Nat
  payloadSize : Nat
  nextOffset : Nat
  kind : Kind
  embedded : Bool
  deriving DecidableEq, Repr

/-- `ld_elf_archive_record_at` after the header has been read, ld_elf_archive.c:105-140. -/
def recordBody (bytes : List Nat) (off : Nat) (thin : Bool) (header : List Nat)
    (memberSize : Nat) : Except Err Record :=
  let nameField := header.take 16
  let payloadOffset := off + 60
  let kind := memberKind nameField
  if thin ∧ kind = .regular ∧ isBsd (rtrim nameField) then .error .thinBsdExtendedName
  else
    let embedded : Bool := !thin || kind != .regular
    let r : Nat → Except Err Record := fun next =>
      .ok { nameField := nameField, payloadOffset := payloadOffset, payloadSize := memberSize,
            nextOffset := next, kind := kind, embedded := embedded }
    if embedded then
      if ¬ (payloadOffset ≤ bytes.length ∧ memberSize ≤ bytes.length - payloadOffset) then
        .error .memberOutOfRange
      else if memberSize % 2 ≠ 0 then
        if payloadOffset + memberSize = bytes.length then .error .missingAlignmentByte
        else r (payloadOffset + memberSize + 1)
      else r (payloadOffset + memberSize)
    else r payloadOffset

/-- `ld_elf_archive_record_at`, ld_elf_archive.c:81-141. -/
def recordAt (bytes : List Nat) (off : Nat) (thin : Bool) : Except Err Record :=
  if off = bytes.length then .error .finished
  else if ¬ (off ≤ bytes.length ∧ 60 ≤ bytes.length - off) then .error .truncatedHeader
  else
    match slice bytes off 60 with
    | .error e => .error e
    | .ok header =>
      if header.getD 58 0 ≠ 96 ∨ header.getD 59 0 ≠ 10 then .error .invalidDelimiter
      else
        match decimal ((header.drop 48).take 10) with
        | none => .error .invalidSize
        | some memberSize => recordBody bytes off thin header memberSize

/-- `ld_elf_archive_copy_name`, ld_elf_archive.c:143-156. -/
def copyName (value : List Nat) : Except Err (List Nat) :=
  if value = [] then .error .emptyName
  else if 0 ∈ value then .error .nameContainsNul
  else .ok value

/-- A `/` at the end is dropped, ld_elf_archive.c:188 and 254. -/
def dropSlash (value : List Nat) : List Nat :=
  if value.getLast? = some 47 then value.dropLast else value

/-- `ld_elf_archive_long_name`, ld_elf_archive.c:158-190; the table is absent if it is empty. -/
def longName (offsetField table : List Nat) : Except Err (List Nat) :=
  if table = [] then .error .nameTableRequired
  else
    match decimal offsetField with
    | none => .error .invalidNameOffset
    | some offset =>
      if offset ≥ table.length then .error .invalidNameOffset
      else if offset ≠ 0 ∧ table.getD (offset - 1) 0 ≠ 10 ∧ table.getD (offset - 1) 0 ≠ 0 then
        .error .nameOffsetInEntry
      else
        let value := table.drop offset
        let newline := value.findIdx? (· == 10)
        let nul := value.findIdx? (· == 0)
        let stop := match newline, nul with
          | some a, some b => some (if a < b then a else b)
          | some a, none => some a
          | none, x => x
        match stop with
        | none => .error .unterminatedName
        | some n => copyName (dropSlash (value.take n))

/-- The offset field without the `/` of thin archives, ld_elf_archive.c:239-247. -/
def offsetField (name : List Nat) : List Nat :=
  let f := name.drop 1
  if f.getLast? = some 47 then rtrim f.dropLast else f

/-- `length` is lowered over zero bytes, ld_elf_archive.c:228. -/
def rtrimZero (f : List Nat) : List Nat := (f.reverse.dropWhile (· == 0)).reverse

/-- What `ld_elf_archive_member_name` gives (ld_elf_archive.c:195-196): the name of a regular member, and where the object
is. -/
structure Named where
  name : Option (List Nat)
  objectOffset : Nat
  objectSize : Nat
  deriving DecidableEq, Repr

/-- `ld_elf_archive_member_name`, ld_elf_archive.c:192-256. -/
def memberName (bytes : List Nat) (r : Record) (table : List Nat) (thin : Bool) :
    Except Err Named :=
  if r.kind ≠ .regular then .ok ⟨none, r.payloadOffset, r.payloadSize⟩
  else
    let name := rtrim r.nameField
    if isBsd name then
      if thin then .error .thinBsdExtendedName
      else
        match decimal (name.drop 3) with
        | none => .error .invalidSize
        | some nameSize =>
          if nameSize > r.payloadSize then .error .invalidSize
          else if ¬ (r.payloadOffset ≤ bytes.length ∧ nameSize ≤ bytes.length - r.payloadOffset) then
            .error .memberOutOfRange
          else
            match slice bytes r.payloadOffset nameSize with
            | .error e => .error e
            | .ok value =>
              match copyName (rtrimZero value) with
              | .error e => .error e
              | .ok n => .ok ⟨some n, r.payloadOffset + nameSize, r.payloadSize - nameSize⟩
    else if name.length ≥ 2 ∧ name.getD 0 0 = 47 ∧ name.getD 1 0 ≥ 48 ∧ name.getD 1 0 ≤ 57 then
      match longName (offsetField name) table with
      | .error e => .error e
      | .ok n => .ok ⟨some n, r.payloadOffset, r.payloadSize⟩
    else
      match copyName (dropSlash name) with
      | .error e => .error e
      | .ok n => .ok ⟨some n, r.payloadOffset, r.payloadSize⟩

/-- The first loop of `ld_elf_parse_archive`, ld_elf_input.c:1619-1643: finds the name table.
`fuel` bounds the steps. -/
def findTable (bytes : List Nat) (thin : Bool) : Nat → Nat → Option (List Nat) →
    Except Err (Option (List Nat))
  | 0, _, _ => .error .endless
  | fuel + 1, off, table =>
    if off < bytes.length then
      match recordAt bytes off thin with
      | .error e => .error e
      | .ok r =>
        if r.kind = .nameTable then
          if table.isSome then .error .duplicateTable
          else
            match slice bytes r.payloadOffset r.payloadSize with
            | .error e => .error e
            | .ok t => findTable bytes thin fuel r.nextOffset (some t)
        else findTable bytes thin fuel r.nextOffset table
    else .ok table

/-- The second loop, ld_elf_input.c:1645-1723: the regular members with their names and their
objects.  The object is only looked at if it is in the archive. -/
def walk (bytes : List Nat) (thin : Bool) (table : List Nat) : Nat → Nat →
    Except Err (List (List Nat × List Nat))
  | 0, _ => .error .endless
  | fuel + 1, off =>
    if off < bytes.length then
      match recordAt bytes off thin with
      | .error e => .error e
      | .ok r =>
        match memberName bytes r table thin with
        | .error e => .error e
        | .ok n =>
          match n.name with
          | none => walk bytes thin table fuel r.nextOffset
          | some name =>
            match (if thin then .ok [] else slice bytes n.objectOffset n.objectSize) with
            | .error e => .error e
            | .ok object =>
              match walk bytes thin table fuel r.nextOffset with
              | .error e => .error e
              | .ok rest => .ok ((name, object) :: rest)
    else .ok []

/-- `ld_elf_parse_archive`, ld_elf_input.c:1604-1725: the walks start after the magic text. -/
def parseArchive (bytes : List Nat) (thin : Bool) : Except Err (List (List Nat × List Nat)) :=
  match findTable bytes thin (bytes.length + 1) 8 none with
  | .error e => .error e
  | .ok table => walk bytes thin (table.getD []) (bytes.length + 1) 8

/-- `ld_elf_archive_path_is_absolute`, ld_elf_archive.c:258-264; the zero byte at the end of a C string
is the 0 that `getD` gives. -/
def pathIsAbsolute (path : List Nat) : Bool :=
  if path.getD 0 0 = 0 then false
  else if path.getD 0 0 = 47 ∨ path.getD 0 0 = 92 then true
  else ((65 ≤ path.getD 0 0 ∧ path.getD 0 0 ≤ 90) ∨ (97 ≤ path.getD 0 0 ∧ path.getD 0 0 ≤ 122)) ∧
    path.getD 1 0 = 58 ∧ (path.getD 2 0 = 47 ∨ path.getD 2 0 = 92)

/-- `strrchr`: the position of the last `c`. -/
def strrchr (s : List Nat) (c : Nat) : Option Nat :=
  (s.reverse.findIdx? (· == c)).map fun i => s.length - 1 - i

/-- `ld_elf_archive_resolve_member_path`, ld_elf_archive.c:266-300, for paths that are not empty; the
sum of the lengths is assumed not to overflow. -/
def resolvePath (archivePath name : List Nat) : List Nat :=
  if pathIsAbsolute name then name
  else
    let slash := strrchr archivePath 47
    let backslash := strrchr archivePath 92
    let separator := match slash, backslash with
      | none, b => b
      | some a, some b => if b > a then some b else some a
      | some a, none => some a
    match separator with
    | none => name
    | some p => archivePath.take (p + 1) ++ name

end Nature.Archive
