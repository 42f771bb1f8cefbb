import Verif.Relax.Spec
/-
src/ld/ld_elf_riscv_relax.c, function by function.

Offsets are natural numbers.  A failure of any kind, which ends the link, is none; failures for lack
of memory are left out.  The output is the list of bytes written from its start.
-/
namespace Nature.Relax

def maxU64 : Nat := 18446744073709551615

/-- `ld_elf_riscv_align_region_t`.  ld_elf_riscv_relax.h:14-21. -/
structure Region where
  input : Nat
  padding : Nat
  alignment : Nat
  output : Nat := 0
  kept : Nat := 0
  source : Nat

/-- `ld_elf_riscv_relax_plan_t`.  ld_elf_riscv_relax.h:23-30. -/
structure Plan where
  regions : List Region
  inSize : Nat
  outSize : Nat
  rvc : Bool
  laidOut : Bool

/-- The loop of `ld_elf_riscv_relax_write_nops`.  ld_elf_riscv_relax.c:31-38.  `n` bounds the rounds; a
size that is no multiple of 4 would never become 0 and is none. -/
def writeNops4 : Nat → Nat → Option (List UInt8)
  | _, 0 => some []
  | 0, _ + 1 => none
  | n + 1, size + 1 =>
    if size + 1 < 4 then none
    else match writeNops4 n (size + 1 - 4) with
      | none => none
      | some l => some (0x13 :: 0 :: 0 :: 0 :: l)

/-- `ld_elf_riscv_relax_write_nops`.  ld_elf_riscv_relax.c:23-39. -/
def writeNops (size : Nat) (rvc : Bool) : Option (List UInt8) :=
  if rvc && (size &&& 2) != 0 then
    match writeNops4 size (size - 2) with
    | none => none
    | some l => some (0x01 :: 0 :: l)
  else writeNops4 size size

/-- `ld_elf_riscv_relax_padding_is_nops`.  ld_elf_riscv_relax.c:41-58.  The numbers read are compared
byte by byte; `n` bounds the rounds. -/
def paddingIsNops (rvc : Bool) : Nat → List UInt8 → Bool
  | _, [] => true
  | 0, _ :: _ => false
  | n + 1, bytes =>
    if rvc && decide (2 ≤ bytes.length) && bytes.take 2 == [0x01, 0x00] then
      paddingIsNops rvc n (bytes.drop 2)
    else if decide (4 ≤ bytes.length) && bytes.take 4 == [0x13, 0x00, 0x00, 0x00] then
      paddingIsNops rvc n (bytes.drop 4)
    else false

/-- `while (required_alignment <= padding) required_alignment <<= 1U`.  ld_elf_riscv_relax.c:138-139.
After 64 rounds the number would be 0 and the loop would not end: none. -/
def requiredAlignment (padding : Nat) : Nat → Nat → Option Nat
  | 0, _ => none
  | n + 1, r => if r ≤ padding then requiredAlignment padding n (2 * r) else some r

/-- `ld_elf_riscv_relax_compare_regions` is not positive.  ld_elf_riscv_relax.c:60-69. -/
def regionLe (a b : Region) : Bool :=
  if a.input < b.input then true
  else if a.input > b.input then false
  else a.source ≤ b.source

/-- One step of an insertion sort; stands for `qsort`. -/
def insertRegion (x : Region) : List Region → List Region
  | [] => [x]
  | y :: ys => if regionLe x y then x :: y :: ys else y :: insertRegion x ys

/-- The first loop of `ld_elf_riscv_relax_plan_build`.  ld_elf_riscv_relax.c:105-147. -/
def collect (rvc : Bool) (inp : List UInt8) : List Align → Option (List Region)
  | [] => some []
  | a :: as =>
    if a.addend < 0 then none
    else
      let padding := a.addend.toNat
      if a.offset > inp.length ∨ padding > inp.length - a.offset then none
      else if padding = 0 then collect rvc inp as
      else
        let granularity := if rvc then 2 else 4
        if padding % granularity ≠ 0 then none
        else if !paddingIsNops rvc padding ((inp.drop a.offset).take padding) then none
        else match requiredAlignment padding 64 1 with
          | none => none
          | some al =>
            match collect rvc inp as with
            | none => none
            | some rs =>
              some ({ input := a.offset, padding := padding, alignment := al,
                      source := a.source } :: rs)

/-- The loop that looks for overlaps.  ld_elf_riscv_relax.c:152-162.  For the first region the code
has no test; `previous` is then 0. -/
def noOverlap : Nat → List Region → Bool
  | _, [] => true
  | previous, r :: rs =>
    if r.input < previous then false else noOverlap (r.input + r.padding) rs

/-- `ld_elf_riscv_relax_plan_build`.  ld_elf_riscv_relax.c:80-174. -/
def planBuild (inp : List UInt8) (as : List Align) (rvc : Bool) : Option Plan :=
  match collect rvc inp as with
  | none => none
  | some rs =>
    if rs.isEmpty then
      some { regions := [], inSize := inp.length, outSize := inp.length, rvc := rvc
             laidOut := true }
    else
      let rs := rs.foldr insertRegion []
      if noOverlap 0 rs then
        some { regions := rs, inSize := inp.length, outSize := inp.length, rvc := rvc
               laidOut := false }
      else none

/-- `ld_elf_riscv_relax_layout_pass`, as the second call makes it.  ld_elf_riscv_relax.c:176-216.  The
first call computes the same and writes nothing.  `place & mask` is the remainder, the alignment
being a power of two. -/
def layoutPass (rvc : Bool) (address : Nat) : Nat → List Region → Option (List Region × Nat)
  | deleted, [] => some ([], deleted)
  | deleted, r :: rs =>
    let output := r.input - deleted
    if address > maxU64 - output then none
    else
      let place := address + output
      let kept := (r.alignment - place % r.alignment) % r.alignment
      let granularity := if rvc then 2 else 4
      if kept > r.padding ∨ kept % granularity ≠ 0 then none
      else
        let removed := r.padding - kept
        if deleted > maxU64 - removed then none
        else match layoutPass rvc address (deleted + removed) rs with
          | none => none
          | some (rs, d) => some ({ r with output := output, kept := kept } :: rs, d)

/-- `ld_elf_riscv_relax_plan_layout`.  ld_elf_riscv_relax.c:218-236. -/
def planLayout (p : Plan) (address : Nat) : Option Plan :=
  match layoutPass p.rvc address 0 p.regions with
  | none => none
  | some (rs, deleted) =>
    some { p with regions := rs, outSize := p.inSize - deleted, laidOut := true }

/-- The loop of `ld_elf_riscv_relax_map`.  ld_elf_riscv_relax.c:255-284. -/
def mapLoop (offset width : Nat) : List Region → Nat → Nat × Bool
  | [], mapped => (mapped, true)
  | r :: rs, mapped =>
    let start := r.input + r.kept
    let stop := r.input + r.padding
    if offset ≥ stop then mapLoop offset width rs (mapped - (stop - start))
    else if offset < start then
      if width ≠ 0 ∧ offset + width > start ∧ offset < stop then (r.output + r.kept, false)
      else (mapped, true)
    else if offset = r.input ∧ width = 0 then (r.output, true)
    else (r.output + r.kept, false)

/-- `ld_elf_riscv_relax_map`.  ld_elf_riscv_relax.c:243-291: the offset in the output, whether the
bytes are kept, and how many bytes follow. -/
def relaxMap (p : Plan) (offset width : Nat) : Option (Nat × Bool × Nat) :=
  if !p.laidOut ∨ offset > p.inSize ∨ width > p.inSize - offset then none
  else match mapLoop offset width p.regions offset with
    | (mapped, alive) =>
      if mapped > p.outSize then none else some (mapped, alive, p.outSize - mapped)

/-- The loop of `ld_elf_riscv_relax_emit` and the tail.  ld_elf_riscv_relax.c:305-331. -/
def emitLoop (rvc : Bool) (inp : List UInt8) : Nat → List Region → Option (List UInt8)
  | source, [] => some (inp.drop source)
  | source, r :: rs =>
    match (if r.kept ≠ 0 then writeNops r.kept rvc else some []) with
    | none => none
    | some nops =>
      match emitLoop rvc inp (r.input + r.padding) rs with
      | none => none
      | some l => some ((inp.drop source).take (r.input - source) ++ nops ++ l)

/-- `ld_elf_riscv_relax_emit`.  ld_elf_riscv_relax.c:293-335. -/
def emit (p : Plan) (inp : List UInt8) (outSize : Nat) : Option (List UInt8) :=
  if !p.laidOut then none
  else if p.inSize ≠ inp.length ∨ p.outSize ≠ outSize then none
  else match emitLoop p.rvc inp 0 p.regions with
    | none => none
    | some out => if out.length = outSize then some out else none

end Nature.Relax
