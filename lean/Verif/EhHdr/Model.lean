/-!
# Model of the writer of `.eh_frame_hdr`

`/repo/src/ld/ld_elf_eh_frame.c:15-156`, the whole file apart from the texts of errors.  Allocation is
assumed to succeed and pointers to be valid.  `qsort` is a parameter; the theorems assume what the C
standard says of it.  A write outside the output is the outcome `outside`.
-/

namespace Nature.EhHdr

/-- `ld_elf_eh_frame_hdr_work_entry_t`, ld_elf_eh_frame.c:18-24, without the distances. -/
structure Work where
  firstPc : Nat
  fdeAddress : Nat
  originalIndex : Nat
  deriving DecidableEq, Repr

/-- `ld_elf_eh_frame_hdr_result_t` other than success, with `*error_entry_index`. -/
inductive Err where
  | countOverflow
  | sizeOverflow
  | outputTooSmall
  | workOverflow
  | pointerRange
  | firstPcRange (i : Nat)
  | fdeRange (i : Nat)
  | outside
  deriving DecidableEq, Repr

/-- `ld_elf_eh_frame_hdr_relative_i32`, ld_elf_eh_frame.c:26-43. -/
def relative (target base : Nat) : Option Int :=
  if target ≥ base then
    let magnitude := target - base
    if magnitude > 2147483647 then none else some (magnitude : Int)
  else
    let magnitude := base - target
    if magnitude > 0x80000000 then none
    else if magnitude = 0x80000000 then some (-2147483648)
    else some (-(magnitude : Int))

/-- `ld_elf_eh_frame_hdr_write_u32`, ld_elf_eh_frame.c:45-50: the bytes. -/
def u32 (v : Nat) : List Nat := [v % 256, (v >>> 8) % 256, (v >>> 16) % 256, (v >>> 24) % 256]

/-- The conversion `(uint32_t)` of an `int32_t`. -/
def cast (x : Int) : Nat := (x % 2 ^ 32).toNat

/-- `ld_elf_eh_frame_hdr_compare_entries`, ld_elf_eh_frame.c:52-64. -/
def compare (l r : Work) : Int :=
  if l.firstPc < r.firstPc then -1
  else if l.firstPc > r.firstPc then 1
  else if l.fdeAddress < r.fdeAddress then -1
  else if l.fdeAddress > r.fdeAddress then 1
  else if l.originalIndex < r.originalIndex then -1
  else if l.originalIndex > r.originalIndex then 1
  else 0

/-- `ld_elf_eh_frame_hdr_size`, ld_elf_eh_frame.c:66-80. -/
def size (count : Nat) : Except Err Nat :=
  if count > 2 ^ 32 - 1 then .error .countOverflow
  else if count > (2 ^ 64 - 1 - 12) / 8 then .error .sizeOverflow
  else .ok (12 + count * 8)

/-- The loop that fills `work`, ld_elf_eh_frame.c:114-118. -/
def fill : Nat → List (Nat × Nat) → List Work
  | _, [] => []
  | i, e :: es => ⟨e.1, e.2, i⟩ :: fill (i + 1) es

/-- The loop over the distances, ld_elf_eh_frame.c:123-140. -/
def distances (hdr : Nat) : List Work → Except Err (List (Int × Int))
  | [] => .ok []
  | w :: ws =>
    match relative w.firstPc hdr with
    | none => .error (.firstPcRange w.originalIndex)
    | some a =>
      match relative w.fdeAddress hdr with
      | none => .error (.fdeRange w.originalIndex)
      | some b =>
        match distances hdr ws with
        | .error err => .error err
        | .ok ds => .ok ((a, b) :: ds)

/-- Bytes written into a buffer, which must be inside it. -/
def poke (buf : List Nat) (off : Nat) (bytes : List Nat) : Except Err (List Nat) :=
  if off + bytes.length ≤ buf.length then
    .ok (buf.take off ++ bytes ++ buf.drop (off + bytes.length))
  else .error .outside

/-- The loop that writes the table, ld_elf_eh_frame.c:149-158. -/
def writeRows : Nat → List (Int × Int) → List Nat → Except Err (List Nat)
  | _, [], buf => .ok buf
  | i, d :: ds, buf =>
    match poke buf (12 + i * 8) (u32 (cast d.1)) with
    | .error err => .error err
    | .ok buf =>
      match poke buf (12 + i * 8 + 4) (u32 (cast d.2)) with
      | .error err => .error err
      | .ok buf => writeRows (i + 1) ds buf

/-- The fixed part, ld_elf_eh_frame.c:142-148. -/
def writeFixed (buf : List Nat) (pointer : Int) (count : Nat) : Except Err (List Nat) := do
  let b ← poke buf 0 [1]
  let b ← poke b 1 [0x1b]
  let b ← poke b 2 [0x03]
  let b ← poke b 3 [0x3b]
  let b ← poke b 4 (u32 (cast pointer))
  poke b 8 (u32 (count % 2 ^ 32))

/-- `ld_elf_eh_frame_hdr_encode`, ld_elf_eh_frame.c:82-162; an entry is the pair of `first_pc` and
`fde_address`. -/
def encode (qsort : List Work → List Work) (output : List Nat) (hdr ehFrame : Nat)
    (entries : List (Nat × Nat)) : Except Err (List Nat) :=
  match size entries.length with
  | .error err => .error err
  | .ok encodedSize =>
    if output.length < encodedSize then .error .outputTooSmall
    else if entries.length > (2 ^ 64 - 1) / 32 then .error .workOverflow
    else if hdr > 2 ^ 64 - 1 - 4 then .error .pointerRange
    else
      match relative ehFrame (hdr + 4) with
      | none => .error .pointerRange
      | some pointer =>
        let work := if entries.length ≠ 0 then qsort (fill 0 entries) else []
        match distances hdr work with
        | .error err => .error err
        | .ok ds =>
          match writeFixed output pointer entries.length with
          | .error err => .error err
          | .ok buf => writeRows 0 ds buf

end Nature.EhHdr
