import Verif.Amd64.Model
/-! Model of the placement of amd64 code in the text section, `elf_amd64_operation_encodings` of
`/repo/src/binary/arch/amd64.h`. -/
namespace Nature.Branch
open Nature.Amd64

abbrev Sym := String

/-- One entry of `c->asm_operations`, the closures of a module one after the other (amd64.h:481-489):
a label, a call or jump to a symbol, an instruction with a symbol for an address (`i` is given with the
operand `amd64_rewrite_rip_symbol` or `amd64_rewrite_fs_offset_symbol`, amd64.h:159-176, puts in its
place), or any other instruction. -/
inductive Item
  | label (s : Sym)
  | br (n : Name) (s : Sym)
  | ref (i : Inst) (s : Sym) (tls : Bool)
  | other (i : Inst)

/-- `symtab_hash` with the `st_value` of the entry it leads to (`elf_put_sym`, elf/linker.c:831-851: the
newest entry of a name is the one that is found).  Symbols of other sections the table may hold before are
left out. -/
abbrev Tab := List (Sym × Nat)

def Tab.get : Tab → Sym → Option Nat
  | [], _ => none
  | (t, v) :: l, s => if t = s then some v else get l s

/-- `Elf64_Rela` (elf_put_relocate, elf/linker.c:1075-1098): place, symbol, kind and addend. -/
structure Rela where
  offset : Nat
  sym : Sym
  tls : Bool
  addend : Int
  deriving DecidableEq, Repr

/-- `amd64_build_temp_t` (amd64.h:15-25): the bytes, `rel_symbol`, and `rel`. -/
structure Piece where
  bytes : List Nat
  pend : Option (Name × Sym) := none
  rel : Option Rela := none
  deriving DecidableEq, Repr

/-- Conversion to `int` (amd64.h:528). -/
def wrap32 (d : Int) : Int := (d + 2147483648) % 4294967296 - 2147483648

/-- `jmp_operation_count` with DWORD, and 5 for calls (amd64.h:81-92, 117-120, 135-138). -/
def longCount (n : Name) : Int := if n = .call ∨ n = .jmp then 5 else 6

/-- `amd64_rewrite_rel_symbol` for an operand that is still a symbol (amd64.h:134-156). -/
def rewrite (n : Name) (diff : Int) : Operand :=
  if diff = 0 ∨ diff > 129 ∨ diff < -126 ∨ n = .call then
    .u32 (if diff = 0 then 0 else ((diff - longCount n) % 4294967296).toNat)
  else .u8 (((diff - 2) % 256).toNat)

/-- `amd64_rewrite_rel_symbol` in the second pass, where the operand is the 32-bit one of the first
(amd64.h:111-124). -/
def rewrite2 (n : Name) (diff : Int) : Operand :=
  .u32 (if diff = 0 then 0 else ((diff - longCount n) % 4294967296).toNat)

/-- `is_imm_operand` and `size` (amd64.h:28-36). -/
def immSize : Operand → Nat
  | .u8 _ => 1
  | .u16 _ => 2
  | .u32 _ => 4
  | .u64 _ => 8
  | .uint _ => 8
  | _ => 0

/-- `rip_offset` (amd64.h:50-66). -/
def ripOffset (count : Nat) (i : Inst) : Nat :=
  count - 4 - (if 1 < i.ops.length then (i.ops.getLast?.map immSize).getD 0 else 0)

/-- What the first pass does to the symbol table (amd64.h:495-510, 548-558). -/
def step (tab : Tab) (off : Nat) : Item → Tab
  | .label s => (s, off) :: tab
  | .ref _ s _ => match tab.get s with
    | none => (s, 0) :: tab
    | some _ => tab
  | _ => tab

/-- What the first pass makes of an entry (amd64.h:495-596).  `none` is a failed assertion of the encoder.
Caller information (amd64.h:598-617) is left out. -/
def piece (tab : Tab) (off : Nat) : Item → Option Piece
  | .label _ => some { bytes := [] }
  | .br n s => match tab.get s with
    | some v => do
      let b ← encode ⟨n, [rewrite n (wrap32 ((v : Int) - off))]⟩
      return { bytes := b }
    | none => do
      let b ← encode ⟨n, [rewrite n 0]⟩
      return { bytes := b, pend := some (n, s) }
  | .ref i s tls => do
    let b ← encode i
    let o := off + ripOffset b.length i
    return { bytes := b
             rel := some { offset := o, sym := s, tls := tls
                           addend := if tls then 0 else -(((off + b.length : Nat) : Int) - o) } }
  | .other i => do
    let b ← encode i
    return { bytes := b }

/-- The first pass (amd64.h:481-620). -/
def pass1 : Nat → Tab → List Item → Option (List Piece × Tab)
  | _, tab, [] => some ([], tab)
  | off, tab, it :: l => do
    let p ← piece tab off it
    let (ps, t) ← pass1 (off + p.bytes.length) (step tab off it) l
    return (p :: ps, t)

/-- One round of the second pass (amd64.h:624-663).  A symbol that is not in the table is entered with the
value 0, which is what `getD` gives. -/
def fix (tab : Tab) (off : Nat) (p : Piece) : Option Piece :=
  match p.pend with
  | none => some p
  | some (n, s) =>
    let v := (tab.get s).getD 0
    if 0 < v then do
      let b ← encode ⟨n, [rewrite2 n (wrap32 ((v : Int) - off))]⟩
      if b.length = p.bytes.length then some { p with bytes := b } else none
    else some { p with rel := some { offset := off + ripOffset p.bytes.length ⟨n, [rewrite n 0]⟩, sym := s, tls := false
                                     addend := -4 } }

/-- The second pass (amd64.h:622-664). -/
def pass2 (tab : Tab) : Nat → List Piece → Option (List Piece)
  | _, [] => some []
  | off, p :: l => do
    let p ← fix tab off p
    let ps ← pass2 tab (off + p.bytes.length) l
    return p :: ps

/-- `elf_amd64_operation_encodings` (amd64.h:473-677): the pieces in the order in which they are put into
the text section. -/
def assemble (prog : List Item) : Option (List Piece) := do
  let (ps, tab) ← pass1 0 [] prog
  pass2 tab 0 ps

end Nature.Branch
