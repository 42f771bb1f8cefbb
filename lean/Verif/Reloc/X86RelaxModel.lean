import Verif.Reloc.X86Model
/-!
# Rewriting of amd64 instruction sequences (model)

Model of the relaxations of src/ld/ld_elf_reloc.c:1092-1720 and of ld_elf.c:5057-5065.  A relocation error is `none`; messages and
null arguments are left out.  `size_t` offsets are natural numbers; that they fit follows from the size of the section.
-/
namespace Nature.Reloc.X86

/-- `ld_elf_relocation_t`, the fields used here. -/
structure Rel where
  type : Nat
  offset : Nat
  addend : Int
  sym : Nat
  /-- `relocation_section_index` -/
  sec : Nat

/-- `ld_elf_symbol_t`, the fields used here. -/
structure Sym where
  name : String
  tls : Bool
  undefined : Bool

/-- `memcpy` of `bytes` to `section_data + start`. -/
def splice (data : Bytes) (start : Nat) (bytes : Bytes) : Bytes := data.take start ++ bytes ++ data.drop (start + bytes.length)

/-- The four bytes `ld_elf_reloc_write_u32` stores for `(uint32_t) value`. -/
def le32 (x : Int) : Bytes := writeU32 [] (BitVec.ofInt 32 x)

/-- Byte `i` of the section. -/
def byte (data : Bytes) (i : Nat) : BitVec 8 := data.getD i 0#8

/-- `memcmp(data + i, expected, sizeof expected) == 0`. -/
def matches_ (data : Bytes) (i : Nat) (expected : Bytes) : Bool := (data.drop i).take expected.length == expected

/-- `ld_elf_reloc_x86_tls_helper_type`, ld_elf_reloc.c:1097-1107. -/
def helperType (type : Nat) : Bool := type == 2 || type == 4 || type == 9 || type == 41

/-- `ld_elf_reloc_x86_tls_helper_indirect`, ld_elf_reloc.c:1109-1112. -/
def helperIndirect (type : Nat) : Bool := type == 9 || type == 41

/-- `ld_elf_relocation_is_x86_tls_pair_start`, ld_elf_reloc.c:1092-1095. -/
def pairStart (type : Nat) : Bool := type == 19 || type == 20 || type == 34

/-- Symbols and addends of a pair, ld_elf_reloc.c:1157-1233. -/
def pairSymbols (syms : List Sym) (r h : Rel) : Bool :=
  pairStart r.type && decide (r.sym < syms.length) && decide (h.sym < syms.length) && r.sec == h.sec &&
  match syms[r.sym]?, syms[h.sym]? with
  | some target, some helper =>
    if r.type == 34 then h.type == 35 && h.sym == r.sym && target.tls && r.addend == -4 && h.addend == 0
    else helperType h.type && helper.name == "__tls_get_addr" && helper.undefined && r.addend == -4 && h.addend == -4
  | _, _ => false

/-- Distance of the two relocations, ld_elf_reloc.c:1235-1241. -/
def helperDelta (r h : Rel) : Nat :=
  if r.type = 34 then 4 else if r.type = 19 then 8 else if helperIndirect h.type then 6 else 5

/-- Bytes in front of the relocation, ld_elf_reloc.c:1258. -/
def prefixSize (r : Rel) : Nat := if r.type = 19 then 4 else 3

/-- Bytes of the whole sequence, ld_elf_reloc.c:1259-1263. -/
def rewriteSize (r h : Rel) : Nat :=
  if r.type = 34 then 9 else if r.type = 19 then 16 else if helperIndirect h.type then 13 else 12

/-- The expected instructions, ld_elf_reloc.c:1278-1322. -/
def pairBytes (r h : Rel) (data : Bytes) (start : Nat) : Bool :=
  if r.type = 34 then
    matches_ data start [0x48#8, 0x8d#8, 0x05#8] && byte data (start + 7) == 0xff#8 && byte data (start + 8) == 0x10#8
  else if r.type = 19 then
    matches_ data start [0x66#8, 0x48#8, 0x8d#8, 0x3d#8] &&
      matches_ data (start + 8)
        (if helperIndirect h.type then [0x66#8, 0x48#8, 0xff#8, 0x15#8] else [0x66#8, 0x66#8, 0x48#8, 0xe8#8])
  else
    matches_ data start [0x48#8, 0x8d#8, 0x3d#8] &&
      (if helperIndirect h.type then byte data (start + 7) == 0xff#8 && byte data (start + 8) == 0x15#8
       else byte data (start + 7) == 0xe8#8)

/-- `ld_elf_reloc_validate_x86_tls_pair`, ld_elf_reloc.c:1144-1325. -/
def validatePair (syms : List Sym) (r h : Rel) (data : Bytes) (mapped : Nat) : Bool :=
  pairSymbols syms r h && decide (r.offset + helperDelta r h < 2 ^ 64) && h.offset == r.offset + helperDelta r h &&
  decide (prefixSize r ≤ mapped) &&
  decide (mapped - prefixSize r ≤ data.length) && decide (rewriteSize r h ≤ data.length - (mapped - prefixSize r)) &&
  pairBytes r h data (mapped - prefixSize r)

/-- `ld_elf_relocation_apply_x86_tls_pair`, ld_elf_reloc.c:1457-1567. -/
def applyPair (syms : List Sym) (r h : Rel) (data : Bytes) (mapped : Nat) (v : Vals) : Option Bytes :=
  if !validatePair syms r h data mapped then none
  else if r.type = 34 then
    (expressionSigned v.S 0 v.TP 32).bind fun value =>
      some (splice data (mapped - 3) ([0x48#8, 0xc7#8, 0xc0#8] ++ le32 value ++ [0x66#8, 0x90#8]))
  else if r.type = 19 then
    (expressionSigned v.S 0 v.TP 32).bind fun value =>
      some (splice data (mapped - 4)
        ([0x64#8, 0x48#8, 0x8b#8, 0x04#8, 0x25#8, 0x00#8, 0x00#8, 0x00#8, 0x00#8, 0x48#8, 0x81#8, 0xc0#8] ++ le32 value))
  else
    (expressionSigned v.TP 0 v.TLS 32).bind fun value =>
      some (splice data (mapped - 3)
        (([0x31#8, 0xc0#8, 0x64#8, 0x48#8, 0x8b#8, 0x00#8, 0x48#8, 0x2d#8] ++ le32 value ++ [0x90#8]).take
          (if helperIndirect h.type then 13 else 12)))

/-- The instruction test of `ld_elf_relocation_apply_x86_gottpoff`, ld_elf_reloc.c:1590-1599 (and of
`ld_elf_reloc_x86_can_relax_gottpoff`, 1124-1142). -/
def gottpoffForm (data : Bytes) (start : Nat) : Bool :=
  (byte data start == 0x48#8 || byte data start == 0x4c#8) && byte data (start + 1) == 0x8b#8 &&
    (byte data (start + 2) &&& 0xc7#8) == 0x05#8

/-- `ld_elf_relocation_apply_x86_gottpoff`, ld_elf_reloc.c:1569-1625. -/
def applyGottpoff (r : Rel) (data : Bytes) (mapped : Nat) (v : Vals) : Option Bytes :=
  if r.type ≠ 22 ∨ r.addend ≠ -4 ∨ mapped < 3 then none
  else if data.length < mapped - 3 ∨ data.length - (mapped - 3) < 7 then none
  else if !gottpoffForm data (mapped - 3) then none
  else (expressionSigned v.S 0 v.TP 32).bind fun value =>
    let rex := byte data (mapped - 3)
    let modrm := byte data (mapped - 3 + 2)
    let target := (modrm >>> 3) &&& 7#8
    some (splice data (mapped - 3) ([0x48#8 ||| ((rex &&& 0x04#8) >>> 2), 0xc7#8, 0xc0#8 ||| target] ++ le32 value))

/-- `ld_elf_x86_gotpcrelx_form_t`, ld_elf_reloc.c:1627-1632. -/
inductive Form | none | lea | call | jump
deriving DecidableEq, Repr

/-- `ld_elf_reloc_x86_gotpcrelx_form`, ld_elf_reloc.c:1634-1665. -/
def gotpcrelxForm (data : Bytes) (offset type : Nat) : Form :=
  if data.length < offset ∨ data.length - offset < 4 then .none
  else if type = 42 then
    if offset < 3 then .none
    else
      let rex := byte data (offset - 3) &&& 0xf0#8 == 0x40#8
      let ripRelative := byte data (offset - 3 + 2) &&& 0xc7#8 == 0x05#8
      if rex && byte data (offset - 3 + 1) == 0x8b#8 && ripRelative then .lea else .none
  else if type ≠ 41 ∨ offset < 2 then .none
  else if byte data (offset - 2) == 0x8b#8 && byte data (offset - 2 + 1) &&& 0xc7#8 == 0x05#8 then .lea
  else if byte data (offset - 2) == 0xff#8 && byte data (offset - 2 + 1) == 0x15#8 then .call
  else if byte data (offset - 2) == 0xff#8 && byte data (offset - 2 + 1) == 0x25#8 then .jump
  else .none

/-- `ld_elf_relocation_apply_x86_gotpcrelx`, ld_elf_reloc.c:1678-1720. -/
def applyGotpcrelx (r : Rel) (data : Bytes) (mapped : Nat) (v : Vals) : Option Bytes :=
  let form := gotpcrelxForm data mapped r.type
  if form = .none then none
  else (expressionSigned v.S r.addend v.P 32).bind fun displacement =>
    let data :=
      if form = .lea then data.set (mapped - 2) 0x8d#8
      else (data.set (mapped - 2) 0x90#8).set (mapped - 1) (if form = .call then 0xe8#8 else 0xe9#8)
    some (splice data mapped (le32 displacement))

/-- `ld_elf_x86_gotpcrelx_direct_fits`, ld_elf.c:5057-5065, with `ld_elf_add_signed`, which fails if the sum is not a `uint64_t`. -/
def directFits (symbol : Nat) (addend : Int) (place : Nat) : Bool :=
  let target := (symbol : Int) + addend
  if target < 0 ∨ 2 ^ 64 ≤ target then false
  else if place ≤ target.toNat then decide (target.toNat - place ≤ 2 ^ 31 - 1)
  else decide (place - target.toNat ≤ 2 ^ 31)

/-! ### Pairing, ld_elf_reloc.c:1327-1455, for one section -/

/-- The offsets at which the call of a sequence may have its relocation, ld_elf_reloc.c:1371-1380. -/
def helperOffsets (r : Rel) : Nat × Nat :=
  (r.offset + (if r.type = 34 then 4 else if r.type = 19 then 8 else 5), r.offset + (if r.type = 34 then 4 else if r.type = 19 then 8 else 6))

/-- The relocations the search finds, ld_elf_reloc.c:1381-1400 (a second one is an error). -/
def candidates (rels : List Rel) (r : Rel) : List Nat :=
  (List.range rels.length).filter fun k =>
    match rels[k]? with
    | some c => (c.offset == (helperOffsets r).1 || c.offset == (helperOffsets r).2) && c.sec == r.sec
    | none => false

/-- One turn of the loop, ld_elf_reloc.c:1346-1431: `pairs` are the pairs found so far.  (Marking GOTTPOFF loads is left out.) -/
def pairTurn (syms : List Sym) (data : Bytes) (rels : List Rel) (pairs : List (Nat × Nat)) (j : Nat) : Option (List (Nat × Nat)) :=
  match rels[j]? with
  | none => none
  | some r =>
    if !pairStart r.type then some pairs
    else if 2 ^ 64 ≤ r.offset + (if r.type = 34 then 4 else if r.type = 19 then 8 else 6) then none
    else match candidates rels r with
      | [k] =>
        match rels[k]? with
        | none => none
        | some h =>
          if k ∈ pairs.map Prod.snd then none
          else if validatePair syms r h data r.offset then some (pairs ++ [(j, k)]) else none
      | _ => none

/-- The loop over the relocations of the section. -/
def pairLoop (syms : List Sym) (data : Bytes) (rels : List Rel) : Nat → Option (List (Nat × Nat))
  | 0 => some []
  | n + 1 => (pairLoop syms data rels n).bind fun pairs => pairTurn syms data rels pairs n

/-- The last check, ld_elf_reloc.c:1433-1453: descriptor calls belong to a pair, and so does every use of `_TLS_MODULE_BASE_`. -/
def pairCheck (syms : List Sym) (rels : List Rel) (pairs : List (Nat × Nat)) : Bool :=
  (List.range rels.length).all fun j =>
    match rels[j]? with
    | none => true
    | some r =>
      !(r.type == 35 && !decide (j ∈ pairs.map Prod.snd)) &&
      (!((syms[r.sym]?.map Sym.name) == some "_TLS_MODULE_BASE_") ||
        (r.type == 34 && decide (j ∈ pairs.map Prod.fst)) || (r.type == 35 && decide (j ∈ pairs.map Prod.snd)))

/-- `ld_elf_relocation_prepare_x86_tls_sequences` for one section: the pairs, `none` for an error. -/
def prepare (syms : List Sym) (data : Bytes) (rels : List Rel) : Option (List (Nat × Nat)) :=
  (pairLoop syms data rels rels.length).bind fun pairs => if pairCheck syms rels pairs then some pairs else none

end Nature.Reloc.X86
