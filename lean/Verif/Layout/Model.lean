import Verif.Layout.Input

/-!
# Model of the layout of sections

`/repo/src/ld/ld_elf.c:3162-3300` (the part of `ld_elf_layout_outputs` for sections that are loaded),
`ld_elf_relro.c:8-131` and `ld_elf.c:7098-7112` (the headers of the loaded segments).  Not modelled: the
relaxation of RISC-V code while it is laid out, sections that are not loaded, and the thread pointer.
`output == backend->tbss` is the test of the flags that put a section there (ld_elf.c:1740-1746).
-/

namespace Nature.Layout

/-- Errors of the layout. -/
inductive Err where
  | overflow
  | notPrefix (name : String)
  | relro
  deriving DecidableEq, Repr

/-- `UINT64_MAX`. -/
def u64Max : Nat := 2 ^ 64 - 1

/-- `ld_elf_align`, ld_elf.c:269-275, and `ld_elf_relro_align`, ld_elf_relro.c:15-22 (which refuses zero;
it is called after the page size has been checked).  `& ~mask` is rounding down to a multiple,
as the alignment is a power of two there. -/
def alignUp (value align : Nat) : Option Nat :=
  let align := if align = 0 then 1 else align
  let mask := align - 1
  if align &&& mask ≠ 0 ∨ value > u64Max - mask then none
  else some ((value + mask) / align * align)

/-- `ld_elf_add_overflow`. -/
def add (a b : Nat) : Option Nat := if a > u64Max - b then none else some (a + b)

/-- `ld_elf_relro_name_family`, ld_elf_relro.c:24-28. -/
def family (name base : String) : Bool :=
  name = base || (base.toList ++ ['.']).isPrefixOf name.toList

/-- `ld_elf_relro_section_is_protected`, ld_elf_relro.c:34-51. -/
def protectedSec (s : Sec) : Bool :=
  if s.size = 0 ∨ s.alloc = false ∨ s.write = false then false
  else if s.tls then s.ty ≠ .nobits
  else if s.ty = .preinitArray ∨ s.ty = .initArray ∨ s.ty = .finiArray then true
  else family s.name ".data.rel.ro" || family s.name ".bss.rel.ro" || s.name = ".got" ||
    s.name = ".dynamic"

/-- `ld_elf_relro_section_is_transparent`, ld_elf_relro.c:53-61. -/
def transparentSec (s : Sec) : Bool :=
  s.size ≠ 0 && s.ty = .nobits && s.alloc && s.write && s.tls

/-- `ld_elf_relro_plan_t`. -/
structure Plan where
  present : Bool := false
  finalized : Bool := false
  fileOffset : Nat := 0
  address : Nat := 0
  fileEnd : Nat := 0
  addressEnd : Nat := 0
  protectionEnd : Nat := 0
  deriving DecidableEq, Repr

/-- `ld_elf_relro_add_section`, ld_elf_relro.c:63-94. -/
def Plan.addSection (plan : Plan) (p : Placed) : Except Err Plan :=
  if plan.finalized then .error .relro
  else if !protectedSec p.sec then .error .relro
  else if p.sec.fileSize > p.sec.size then .error .relro
  else
    match add p.off p.sec.fileSize, add p.addr p.sec.size with
    | some fileEnd, some addressEnd =>
      if !plan.present then
        .ok { plan with
          fileOffset := p.off, address := p.addr, present := true, fileEnd := fileEnd,
          addressEnd := addressEnd }
      else if p.off < plan.fileEnd ∨ p.addr < plan.addressEnd then .error .relro
      else .ok { plan with fileEnd := fileEnd, addressEnd := addressEnd }
    | _, _ => .error .relro

/-- `ld_elf_relro_finalize`, ld_elf_relro.c:96-131; it is called only when `present` holds.  It gives the
plan and the next cursors in the file and in memory. -/
def Plan.finalize (plan : Plan) (page file addr : Nat) : Except Err (Plan × Nat × Nat) :=
  if plan.finalized then .error .relro
  else if page = 0 ∨ page &&& (page - 1) ≠ 0 then .error .relro
  else if file < plan.fileEnd ∨ addr < plan.addressEnd then .error .relro
  else if plan.fileOffset % page ≠ plan.address % page then .error .relro
  else
    match alignUp file page, alignUp addr page with
    | some alignedFile, some alignedAddr =>
      if plan.fileEnd < plan.fileOffset ∨ alignedAddr < plan.address then .error .relro
      else .ok ({ plan with protectionEnd := alignedAddr, finalized := true }, alignedFile, alignedAddr)
    | _, _ => .error .relro

/-- The loop over the read-only sections, ld_elf.c:3162-3177: the sections with their places, and the end
in the file. -/
def layRo (base : Nat) : List Sec → Nat → Except Err (List Placed × Nat)
  | [], cursor => .ok ([], cursor)
  | s :: ss, cursor =>
    if s.alloc = false ∨ s.write = true then layRo base ss cursor
    else
      match alignUp cursor s.align with
      | none => .error .overflow
      | some at' =>
        match add at' s.fileSize with
        | none => .error .overflow
        | some next =>
          match layRo base ss next with
          | .error err => .error err
          | .ok (ps, fin) => .ok (⟨s, (base + at') % 2 ^ 64, at'⟩ :: ps, fin)

/-- The cursors of the second loop. -/
structure State where
  file : Nat
  addr : Nat
  plan : Plan
  deriving DecidableEq, Repr

/-- ld_elf.c:3195-3210: the end of the protected prefix. -/
def before (page : Nat) (st : State) (s : Sec) : Except Err State :=
  if !protectedSec s && !transparentSec s && s.size ≠ 0 && st.plan.present && !st.plan.finalized then
    match st.plan.finalize page st.file st.addr with
    | .error err => .error err
    | .ok (plan, file, addr) => .ok ⟨file, addr, plan⟩
  else if protectedSec s && st.plan.finalized then .error (.notPrefix s.name)
  else .ok st

/-- ld_elf.c:3211-3273: the place of a section, and the cursors after it. -/
def place (st : State) (s : Sec) : Except Err (Placed × State) :=
  match alignUp st.addr s.align, alignUp st.file s.align with
  | some addr, some file =>
    if s.tls && s.ty = .nobits then
      match add addr s.size with
      | none => .error .overflow
      | some _ => .ok (⟨s, addr, file⟩, st)
    else
      match add addr s.size with
      | none => .error .overflow
      | some addr' =>
        match (if s.ty = .nobits then some file else add file s.fileSize) with
        | none => .error .overflow
        | some file' =>
          if protectedSec s then
            match st.plan.addSection ⟨s, addr, file⟩ with
            | .error err => .error err
            | .ok plan => .ok (⟨s, addr, file⟩, ⟨file', addr', plan⟩)
          else .ok (⟨s, addr, file⟩, ⟨file', addr', st.plan⟩)
  | _, _ => .error .overflow

/-- The loop over the writable sections, ld_elf.c:3187-3274. -/
def layRw (page : Nat) : List Sec → State → Except Err (List Placed × State)
  | [], st => .ok ([], st)
  | s :: ss, st =>
    if s.alloc = false ∨ s.write = false then layRw page ss st
    else
      match before page st s with
      | .error err => .error err
      | .ok st =>
        match place st s with
        | .error err => .error err
        | .ok (p, st) =>
          match layRw page ss st with
          | .error err => .error err
          | .ok (ps, fin) => .ok (p :: ps, fin)

/-- The result: places, the two loaded segments, and the region that becomes read-only. -/
structure Result where
  ro : List Placed
  rw : List Placed
  roSegment : Segment
  rwSegment : Segment
  plan : Plan
  deriving DecidableEq, Repr

/-- `ld_elf_layout_outputs`, ld_elf.c:3160-3284, for sections in their order, and the segments of
ld_elf.c:7103-7112. -/
def layout (base page headerSize : Nat) (secs : List Sec) : Except Err Result :=
  match layRo base secs headerSize with
  | .error err => .error err
  | .ok (ro, rx) =>
    match alignUp rx page with
    | none => .error .overflow
    | some rwOff =>
      let rwAddr := (base + rwOff) % 2 ^ 64
      match layRw page secs ⟨rwOff, rwAddr, {}⟩ with
      | .error err => .error err
      | .ok (rw, st) =>
        let last : Except Err (Plan × Nat) :=
          if st.plan.present && !st.plan.finalized then
            match st.plan.finalize page st.file st.addr with
            | .error err => .error err
            | .ok (plan, _, addr) => .ok (plan, addr)
          else .ok (st.plan, st.addr)
        match last with
        | .error err => .error err
        | .ok (plan, addr) =>
          .ok ⟨ro, rw, ⟨0, base, rx, rx, true, false⟩,
            ⟨rwOff, rwAddr, st.file - rwOff, addr - rwAddr, false, true⟩, plan⟩

/-- The names of `ld_elf_output_rank`, ld_elf.c:1845-1868. -/
def ranks : List (String × Nat) :=
  [(".note.gnu.property", 1), (".dynsym", 2), (".dynstr", 3), (".hash", 4), (".gnu.hash", 4),
    (".rela.dyn", 5), (".init", 9), (".text", 10), (".fini", 11), (".plt.got", 12), (".rodata", 20),
    (".eh_frame_hdr", 29), (".eh_frame", 30), (".tdata", 40), (".tbss", 41), (".preinit_array", 50),
    (".init_array", 51), (".fini_array", 52), (".data.rel.ro", 53), (".bss.rel.ro", 54),
    (".dynamic", 55), (".got", 60), (".data", 70), (".bss", 80)]

/-- `ld_elf_output_rank`, ld_elf.c:1841-1878, without the flag `SHF_MERGE`: the order of the sections. -/
def rank (s : Sec) : Nat :=
  if s.alloc = false then 90
  else
    match ranks.lookup s.name with
    | some r => r
    | none =>
      if s.exec then 13
      else if s.write then (if s.ty = .nobits then 80 else 71)
      else 21

/-- What `qsort` with `ld_elf_compare_output_order`, ld_elf.c:1880-1901, makes of the sections.  Only the
rank, which is compared first, is modelled: how ties are broken (name, type, flags) is left open. -/
structure Ordered (secs sorted : List Sec) : Prop where
  perm : sorted.Perm secs
  byRank : sorted.Pairwise fun a b => rank a ≤ rank b

end Nature.Layout
