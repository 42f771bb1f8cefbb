import Verif.Common
/-!
Model of src/ld/ld_elf_riscv_uleb.c: patching ULEB128 fields in place.
`place` is the readable memory from the pointer on; `place_size` the size passed by
the caller.  An access outside `place`, a shift by 64 or more and a store past the
ten bytes of `replacement` are undefined behaviour.  The null checks on `place` and
`encoded_size` are left out (both are assumed non-null).
-/
namespace Nature.Uleb
open Nature

abbrev Byte := BitVec 8
abbrev U64 := BitVec 64

/-- ld_elf_riscv_uleb.h `ld_elf_riscv_uleb_result_t`. -/
inductive Status | ok | truncated | fieldOverflow | setOverflow | subOverflow
  deriving DecidableEq, Repr

/-- `UINT64_MAX`. -/
def umax : U64 := BitVec.allOnes 64
/-- The magnitude of a negative addend, `(uint64_t) (-(addend + 1)) + 1U` (line 24, 40). -/
def magnitude (addend : U64) : U64 := -(addend + 1#64) + 1#64

/-- ld_elf_riscv_uleb.c:16-28 `ld_elf_riscv_uleb_add_signed` (`none` for `false`). -/
def addSigned (value addend : U64) : Option U64 :=
  if 0 ≤ addend.toInt then
    if value > umax - addend then none else some (value + addend)
  else
    if magnitude addend > value then none else some (value - magnitude addend)

/-- ld_elf_riscv_uleb.c:30-43 `ld_elf_riscv_uleb_subtract_signed`. -/
def subSigned (value addend : U64) : Option U64 :=
  if 0 ≤ addend.toInt then
    if addend > value then none else some (value - addend)
  else
    if value > umax - magnitude addend then none else some (value + magnitude addend)

/-- ld_elf_riscv_uleb.c:48-57: the loop of `field_size` from index `i`, `k = limit - i`;
`none` when the loop runs out. -/
def fieldLoop (place : List Byte) : (k i : Nat) → Res (Option (Status × Nat))
  | 0, _ => .ok none
  | k + 1, i =>
    match place[i]? with
    | none => .ub
    | some byte =>
      if i = 9 ∧ (byte &&& 0x7f#8) > 1#8 then .ok (some (.fieldOverflow, 0))
      else if byte &&& 0x80#8 = 0#8 then .ok (some (.ok, i + 1))
      else fieldLoop place k (i + 1)

/-- ld_elf_riscv_uleb.c:45-60 `ld_elf_riscv_uleb_field_size`. -/
def fieldSize (place : List Byte) (placeSize : Nat) : Res (Status × Nat) :=
  let limit := if placeSize < 10 then placeSize else 10
  (fieldLoop place limit 0).bind fun r =>
  match r with
  | some x => .ok x
  | none => .ok (if placeSize < 10 then .truncated else .fieldOverflow, 0)

/-- ld_elf_riscv_uleb.c:64-68: the loop of `read` from index `i`, `k = width - i`. -/
def readLoop (place : List Byte) : (k i : Nat) → (value : U64) → Res U64
  | 0, _, value => .ok value
  | k + 1, i, value =>
    match place[i]? with
    | none => .ub
    | some byte =>
      if i * 7 < 64 then readLoop place k (i + 1) (value ||| (byte &&& 0x7f#8).setWidth 64 <<< (i * 7))
      else .ub

/-- ld_elf_riscv_uleb.c:62-69 `ld_elf_riscv_uleb_read`. -/
def read (place : List Byte) (width : Nat) : Res U64 := readLoop place width 0 0#64

/-- ld_elf_riscv_uleb.c:74-78: the bytes `replacement[i..width)`, `k = width - i`. -/
def groups : (k : Nat) → (value : U64) → List Byte
  | 0, _ => []
  | k + 1, value =>
    let b := (value &&& 0x7f#64).setWidth 8
    (if k ≠ 0 then b ||| 0x80#8 else b) :: groups k (value >>> 7)

/-- ld_elf_riscv_uleb.c:71-81 `ld_elf_riscv_uleb_write`: the memory after the store. -/
def write (place : List Byte) (width : Nat) (value : U64) : Res (List Byte) :=
  if width ≤ 10 ∧ width ≤ place.length then .ok (groups width value ++ place.drop width) else .ub

/-- What a call leaves behind: result, memory at `place`, `*encoded_size`. -/
structure Out where
  status : Status
  place : List Byte
  size : Nat
  deriving DecidableEq, Repr

/-- ld_elf_riscv_uleb.c:83-107 `ld_elf_riscv_uleb_apply`. -/
def apply (place : List Byte) (placeSize : Nat) (subtract : Bool) (symbol addend : U64) : Res Out :=
  (fieldSize place placeSize).bind fun (st, width) =>
  if st ≠ .ok then .ok ⟨st, place, 0⟩ else
  if subtract then
    match subSigned symbol addend with
    | none => .ok ⟨.subOverflow, place, width⟩
    | some operand =>
      (read place width).bind fun current =>
      (write place width (current - operand)).bind fun p => .ok ⟨.ok, p, width⟩
  else
    match addSigned symbol addend with
    | none => .ok ⟨.setOverflow, place, width⟩
    | some operand => (write place width operand).bind fun p => .ok ⟨.ok, p, width⟩

/-- ld_elf_riscv_uleb.c:109-136 `ld_elf_riscv_uleb_apply_pair`. -/
def applyPair (place : List Byte) (placeSize : Nat) (setSym setAdd subSym subAdd : U64) : Res Out :=
  (fieldSize place placeSize).bind fun (st, width) =>
  if st ≠ .ok then .ok ⟨st, place, 0⟩ else
  if ¬ (width ≤ 10 ∧ width ≤ place.length) then .ub else
  (apply (place.take width) width false setSym setAdd).bind fun r1 =>
  if r1.status ≠ .ok then .ok ⟨r1.status, place, width⟩ else
  (apply r1.place width true subSym subAdd).bind fun r2 =>
  if r2.status ≠ .ok then .ok ⟨r2.status, place, width⟩ else
  .ok ⟨.ok, r2.place.take width ++ place.drop width, width⟩

end Nature.Uleb
