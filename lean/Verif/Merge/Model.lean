import Verif.Merge.Spec
/-
src/ld/ld_elf_merge.c, function by function.

Numbers are natural numbers; where the code checks for overflow of 64 bits the model does.  The hash
table of fragments (uthash, keyed by the bytes) is a list in order of insertion, which is also the
order in which `HASH_ITER` goes through it.  A fragment is referred to by its position in the list
instead of its address.  Failures, which all end the link, are none; those for lack of memory are
left out.
-/
namespace Nature.Merge

/-- `ld_elf_merge_fragment_t`, without its place.  ld_elf_merge.c:17-23. -/
structure Frag where
  bytes : List UInt8
  align : Nat

/-- `ld_elf_merge_mapping_t`.  ld_elf_merge.c:25-29. -/
structure Mapping where
  offset : Nat
  size : Nat
  frag : Nat

/-- `ld_elf_merge_group`, before it is placed.  ld_elf_merge.c:31-42.  `output` is the number of the
output section. -/
structure Group where
  output : Nat
  type : Nat
  flags : Nat
  frags : List Frag

/-- `ld_elf_merge_input`.  ld_elf_merge.c:44-51. -/
structure Input where
  group : Nat
  mappings : List Mapping

/-- `ld_elf_merge_plan_t`.  ld_elf_merge.h:9-14; `inputs` in the order in which they were added. -/
structure Plan where
  groups : List Group := []
  inputs : List Input := []

/-- `LD_ELF_SHT_PROGBITS`.  src/ld/elf_format.h:82. -/
def SHT_PROGBITS : Nat := 1

/-- `ld_elf_merge_section_eligible`.  ld_elf_merge.c:100-109: flag 0x10 is merge, 0x20 strings. -/
def eligible (s : Sec) : Bool :=
  s.flags.testBit 4 && s.type == SHT_PROGBITS && s.relocs == 0 && !s.nobits &&
    (s.flags.testBit 5 || s.entsize != 0)

/-- `merge_null_unit`.  ld_elf_merge.c:211-216. -/
def nullUnit (data : List UInt8) (c size : Nat) : Bool :=
  (List.range size).all fun i => data.getD (c + i) 0 == 0

/-- The inner loop of `ld_elf_merge_add_section`: the end of the string.  ld_elf_merge.c:270-284.
`n` bounds the number of rounds; each goes on by a unit. -/
def stringEnd (data : List UInt8) (unit : Nat) : Nat → Nat → Option Nat
  | 0, _ => none
  | n + 1, cursor =>
    if cursor > data.length - unit then none
    else if nullUnit data cursor unit then some (cursor + unit)
    else stringEnd data unit n (cursor + unit)

/-- The outer loop: offsets and sizes of the entities.  ld_elf_merge.c:267-291, 173-179 (entities
larger than `UINT_MAX`).  `n` bounds the number of rounds. -/
def entities (data : List UInt8) (strings : Bool) (unit : Nat) :
    Nat → Nat → Option (List (Nat × Nat))
  | 0, offset => if offset < data.length then none else some []
  | n + 1, offset =>
    if offset < data.length then
      match (if strings then stringEnd data unit data.length offset else some (offset + unit)) with
      | none => none
      | some e =>
        if e - offset > 4294967295 then none
        else match entities data strings unit n e with
          | none => none
          | some l => some ((offset, e - offset) :: l)
    else some []

/-- `merge_add_entity`.  ld_elf_merge.c:170-209: the fragments and the number of the entity's. -/
def addEntity (frags : List Frag) (align : Nat) (bytes : List UInt8) : List Frag × Nat :=
  match frags.findIdx? (fun f => f.bytes == bytes) with
  | none =>
    (frags ++ [{ bytes := bytes, align := if align ≠ 0 then align else 1 }], frags.length)
  | some i =>
    (frags.modify i (fun f => if align > f.align then { f with align := align } else f), i)

/-- All entities of a section. -/
def addEntities (align : Nat) (data : List UInt8) :
    List (Nat × Nat) → List Frag → List Frag × List Mapping
  | [], frags => (frags, [])
  | (b, n) :: l, frags =>
    match addEntity frags align ((data.drop b).take n) with
    | (frags, i) =>
      match addEntities align data l frags with
      | (frags, ms) => (frags, { offset := b, size := n, frag := i } :: ms)

/-- `merge_find_group`.  ld_elf_merge.c:111-134. -/
def findGroup (groups : List Group) (s : Sec) (output : Nat) : List Group × Nat :=
  match groups.findIdx? (fun g => g.output == output && g.type == s.type && g.flags == s.flags) with
  | some i => (groups, i)
  | none =>
    (groups ++ [{ output := output, type := s.type, flags := s.flags, frags := [] }], groups.length)

/-- `ld_elf_merge_add_section`.  ld_elf_merge.c:218-292. -/
def addSection (p : Plan) (s : Sec) (output : Nat) : Option Plan :=
  if !eligible s then none
  else
    let strings := s.flags.testBit 5
    let unit := if strings && s.entsize == 0 then 1 else s.entsize
    if unit = 0 then none
    else if s.data.length % unit ≠ 0 then none
    else
      match findGroup p.groups s output with
      | (groups, g) =>
        match entities s.data strings unit s.data.length 0 with
        | none => none
        | some es =>
          match addEntities s.align s.data es ((groups.map (·.frags)).getD g []) with
          | (frags, ms) =>
            some { groups := groups.modify g (fun x => { x with frags := frags })
                   inputs := p.inputs ++ [{ group := g, mappings := ms }] }

/-! ### layout -/

def maxU64 : Nat := 18446744073709551615

/-- `merge_align`.  ld_elf_merge.c:60-67.  `& ~mask` is written as rounding down to a multiple, which
it is for a power of two. -/
def mergeAlign (value alignment : Nat) : Option Nat :=
  let alignment := if alignment = 0 then 1 else alignment
  let mask := alignment - 1
  if alignment &&& mask ≠ 0 ∨ value > maxU64 - mask then none
  else some ((value + mask) / alignment * alignment)

/-- `merge_add_overflow`.  ld_elf_merge.c:53-58.  `left > UINT64_MAX - right`, for 64-bit numbers. -/
def mergeAdd (left right : Nat) : Option Nat :=
  if left + right > maxU64 then none else some (left + right)

/-- `memcmp` of two strings of the same length is negative or 0. -/
def bytesLe : List UInt8 → List UInt8 → Bool
  | a :: as, b :: bs => if a < b then true else if b < a then false else bytesLe as bs
  | _, _ => true

/-- `merge_fragment_compare` is negative or 0.  ld_elf_merge.c:294-304. -/
def fragLe (a b : Frag) : Bool :=
  if a.align ≠ b.align then a.align < b.align
  else if a.bytes.length ≠ b.bytes.length then a.bytes.length < b.bytes.length
  else bytesLe a.bytes b.bytes

/-- One step of an insertion sort; stands for `qsort`. -/
def insertFrag (x : Nat × Frag) : List (Nat × Frag) → List (Nat × Frag)
  | [] => [x]
  | y :: ys => if fragLe x.2 y.2 then x :: y :: ys else y :: insertFrag x ys

/-- The order of the fragments.  ld_elf_merge.c:323-329.  `qsort` is some sort; no two fragments of
a group are equal in the order, so which sort it is makes no difference. -/
def order (frags : List Frag) : List Nat :=
  (((List.range frags.length).zip frags).foldr insertFrag []).map (·.1)

/-- The loop that gives each fragment its offset.  ld_elf_merge.c:330-346: size, alignment, offsets. -/
def place (frags : List Frag) :
    List Nat → Nat → Nat → (Nat → Nat) → Option (Nat × Nat × (Nat → Nat))
  | [], size, align, off => some (size, align, off)
  | i :: is, size, align, off =>
    match frags[i]? with
    | none => none
    | some f =>
      match mergeAlign size f.align with
      | none => none
      | some o =>
        match mergeAdd o f.bytes.length with
        | none => none
        | some size =>
          place frags is size (if f.align > align then f.align else align)
            (fun x => if x = i then o else off x)

/-- What is used here of `ld_elf_output_section_t`. -/
structure Output where
  size : Nat
  align : Nat

/-- A group with its place in the output section. -/
structure Placed where
  group : Group
  base : Nat
  size : Nat
  align : Nat
  off : Nat → Nat

/-- The body of the loop of `ld_elf_merge_finalize`.  ld_elf_merge.c:308-365. -/
def finalizeGroup (g : Group) (outs : Nat → Output) : Option (Placed × (Nat → Output)) :=
  match place g.frags (order g.frags) 0 1 (fun _ => 0) with
  | none => none
  | some (size, align, off) =>
    match mergeAlign (outs g.output).size align with
    | none => none
    | some base =>
      match mergeAdd base size with
      | none => none
      | some total =>
        some ({ group := g, base := base, size := size, align := align, off := off },
          fun o => if o = g.output then
              { size := total
                align := if align > (outs o).align then align else (outs o).align }
            else outs o)

/-- `ld_elf_merge_finalize`.  ld_elf_merge.c:306-371. -/
def finalize : List Group → (Nat → Output) → Option (List Placed × (Nat → Output))
  | [], outs => some ([], outs)
  | g :: gs, outs =>
    match finalizeGroup g outs with
    | none => none
    | some (p, outs) =>
      match finalize gs outs with
      | none => none
      | some (ps, outs) => some (p :: ps, outs)

/-! ### output -/

/-- The contents of the output sections. -/
abbrev Data := Nat → Nat → UInt8

/-- One fragment to be written. -/
structure Write where
  output : Nat
  pos : Nat
  bytes : List UInt8

/-- `memcpy(output->data + pos, bytes)`. -/
def Write.run (w : Write) (d : Data) : Data := fun o x =>
  if o = w.output ∧ w.pos ≤ x ∧ x < w.pos + w.bytes.length then w.bytes.getD (x - w.pos) 0 else d o x

/-- The fragments of a group, in order of insertion, with their places. -/
def writesOf (p : Placed) : List Write :=
  ((List.range p.group.frags.length).zip p.group.frags).map fun x =>
    { output := p.group.output, pos := p.base + p.off x.1, bytes := x.2.bytes }

/-- `ld_elf_merge_emit`.  ld_elf_merge.c:373-396, the two loops as one. -/
def emit (outs : Nat → Output) : List Write → Data → Option Data
  | [], d => some d
  | w :: ws, d =>
    if w.pos > maxU64 ∨ w.pos > (outs w.output).size ∨
        w.bytes.length > (outs w.output).size - w.pos then none
    else emit outs ws (w.run d)

/-- `ld_elf_merge_map_input`.  ld_elf_merge.c:398-419: offset in the group and bytes available. -/
def mapInput (off : Nat → Nat) (ms : List Mapping) (x width : Nat) : Option (Nat × Nat) :=
  match ms with
  | [] => none
  | m :: ms =>
    if x < m.offset ∨ x - m.offset ≥ m.size then mapInput off ms x width
    else
      let within := x - m.offset
      if width > m.size - within then none
      else some (off m.frag + within, m.size - within)

/-- The place of `width` bytes at offset `x` of the section that was added `k`-th:
`section->output_offset`, set in ld_elf_merge.c:366-369, and the offset in the group. -/
def locate (p : Plan) (ps : List Placed) (k x width : Nat) : Option (Nat × Nat) :=
  match p.inputs[k]? with
  | none => none
  | some i =>
    match ps[i.group]? with
    | none => none
    | some g =>
      match mapInput g.off i.mappings x width with
      | none => none
      | some (o, n) => some (g.base + o, n)

/-- The sections one after the other, each with its output section. -/
def addAll : List (Sec × Nat) → Plan → Option Plan
  | [], p => some p
  | (s, o) :: l, p =>
    match addSection p s o with
    | none => none
    | some p => addAll l p

/-- The whole of it. -/
def mergeAll (secs : List (Sec × Nat)) (outs : Nat → Output) (d : Data) :
    Option (Plan × List Placed × (Nat → Output) × Data) :=
  match addAll secs {} with
  | none => none
  | some p =>
    match finalize p.groups outs with
    | none => none
    | some (ps, outs) =>
      match emit outs (ps.flatMap writesOf) d with
      | none => none
      | some d => some (p, ps, outs, d)

/-- `ld_elf_add_signed`: none if the sum is not a 64-bit number. -/
def addSigned (value : Nat) (addend : Int) : Option Nat :=
  if (value : Int) + addend < 0 ∨ (value : Int) + addend > maxU64 then none
  else some ((value : Int) + addend).toNat

/-- `ld_elf_adjust_merge_section_addend`.  src/ld/ld_elf.c:4925-4986: the value the symbol of section
`k` is given for one relocation, so that the relocation, which adds its addend, comes to the byte the
addend selects.  `base` is the address of the output section, `value` the symbol's own value. -/
def adjustAddend (p : Plan) (ps : List Placed) (base k value : Nat) (addend : Int) : Option Nat :=
  match addSigned value addend with
  | none => none
  | some target =>
    match locate p ps k target 0 with
    | none => none
    | some (pos, _) =>
      match mergeAdd base pos with
      | none => none
      | some desired =>
        if addend ≥ 0 then
          if addend.toNat > desired then none else some (desired - addend.toNat)
        else
          let magnitude := (-(addend + 1)).toNat + 1
          if desired > maxU64 - magnitude then none else some (desired + magnitude)

end Nature.Merge
