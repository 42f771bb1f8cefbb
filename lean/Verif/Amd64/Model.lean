import Verif.Amd64.Table
/-! Model of the amd64 encoder, `/repo/src/binary/encoding/amd64/opcode.c`. -/
namespace Nature.Amd64

/-- Position of an operand type in its enum (opcode.h:44-83). -/
def OpTy.ord (t : OpTy) : Nat := t.ctorIdx

/-- The five kinds of an `rm` type (opcode.c:925-972). -/
def rmKeys (s : Nat) : List Key := [(.reg, s), (.ind, s), (.disp, s), (.rip, s), (.sib, s)]

/-- `operand_low_to_high` (opcode.c:896-1153). -/
def lowToHigh : OpTy → List Key
  | .rel8 => [(.u8, 1)]
  | .rel16 => [(.u16, 2)]
  | .rel32 => [(.u32, 4)]
  | .rm8 => rmKeys 1
  | .rm16 => rmKeys 2
  | .rm32 => rmKeys 4
  | .rm64 => rmKeys 8
  | .seg64 => [(.seg, 8)]
  | .m => [(.ind, 8), (.sib, 8), (.disp, 8), (.rip, 8)]
  | .m16 => [(.ind, 2)]
  | .m32 => [(.ind, 4), (.disp, 4), (.rip, 4), (.sib, 4)]
  | .m64 => [(.ind, 8), (.disp, 8), (.sib, 8), (.rip, 8)]
  | .imm8 => [(.u8, 1)]
  | .imm16 => [(.u16, 2)]
  | .imm32 => [(.u32, 4), (.uint, 8)]
  | .imm64 => [(.u64, 8)]
  | .r8 => [(.reg, 1)]
  | .r16 => [(.reg, 2)]
  | .r32 => [(.reg, 4)]
  | .r64 => [(.reg, 8)]
  | .xmm1s64 | .xmm2s64 => [(.freg, 8)]
  | .xmm1s32 | .xmm2s32 => [(.freg, 4)]
  | .xmm1m64 | .xmm2m64 => [(.freg, 8), (.ind, 8), (.rip, 8), (.sib, 8), (.disp, 8)]
  | .xmm1m32 | .xmm2m32 => [(.freg, 4), (.ind, 4), (.rip, 4), (.sib, 4), (.disp, 4)]

/-- Is the row found under this path of keys?  The tree of `opcode_tree_build`/`opcode_find_succs`
(opcode.c:1155-1209) stores a row at every path made of one key per formal operand. -/
def Row.under : List (OpTy × Enc) → List Key → Bool
  | [], [] => true
  | (t, _) :: ts, k :: ks => (lowToHigh t).contains k && under ts ks
  | _, _ => false

/-- The leaf of the tree for a name and a path of keys, in registration order
(opcode.c:1155-1209, and the walk in opcode_select, 1280-1339). -/
def leaf (n : Name) (ks : List Key) : List Row :=
  rows.filter fun r => decide (r.group = n) && Row.under r.ops ks

/-- `has_rex_extension` (opcode.c:1268-1278). -/
def Row.hasRex (r : Row) : Bool := r.exts.contains .rex || r.exts.contains .rexW

/-- `operands[0].type` (0 when there are no operands) (opcode.c:1388). -/
def Row.ord0 (r : Row) : Nat :=
  match r.ops with
  | [] => 0
  | (t, _) :: _ => t.ord + 1

/-- The inner loop of `opcode_sort_insts` (opcode.c:1387-1394): one pass of swaps over the first
`n + 1` entries. -/
def pass : Nat → List Row → List Row
  | n + 1, a :: b :: l => if b.ord0 < a.ord0 then b :: pass n (a :: l) else a :: pass n (b :: l)
  | _, l => l

/-- `opcode_sort_insts` (opcode.c:1379-1400); leaving when nothing changed has no effect on the
result. -/
def sortRows : Nat → List Row → List Row
  | 0, l => l
  | n + 1, l => sortRows n (pass (n + 1) l)

/-- `opcode_select` (opcode.c:1280-1377) as a function of what it looks at: the name, the keys, and
whether a high byte register occurs.  `none` is an assertion failure. -/
def selectKey (n : Name) (ks : List Key) (high : Bool) : Option Row :=
  let l := (leaf n ks).filter fun r => !(high && r.hasRex)
  (sortRows (l.length - 1) l).head?

/-- `has_64_reg` (opcode.c:1211-1231): `spl`, `bpl`, `sil`, `dil` and everything numbered 8 or more. -/
def has64 (r : Reg) : Bool := (r.size == 1 && !r.float && !r.high && decide (4 ≤ r.idx)) || decide (8 ≤ r.idx)

/-- The registers `opcode_select` inspects in an operand (opcode.c:1295-1314). -/
def Operand.regs : Operand → List Reg
  | .reg r | .ind r _ | .disp r _ _ => [r]
  | .sib b i _ _ _ => b.toList ++ i.toList
  | _ => []

/-- All registers of an instruction. -/
def Inst.regs (i : Inst) : List Reg := i.ops.flatMap Operand.regs

/-- `opcode_select` (opcode.c:1280-1377). -/
def select (i : Inst) : Option Row := selectKey i.name (i.ops.map Operand.key) (i.regs.any Reg.high)

/-- `asm_inst->need_rex_ext` (opcode.c:1345). -/
def Inst.needRex (i : Inst) : Bool := i.regs.any has64

/-- `rex_prefix_t` (opcode.h:125-130). -/
structure Rex where
  w : Bool := false
  r : Bool := false
  x : Bool := false
  b : Bool := false
  deriving DecidableEq, Repr

/-- `modrm_t` (opcode.h:132-136). -/
structure Modrm where
  mod : Nat := 0
  reg : Nat := 0
  rm : Nat := 0
  deriving DecidableEq, Repr

/-- `sib_t` (opcode.h:138-143); its `disp` member is never read. -/
structure Sib where
  scale : Nat
  index : Nat
  base : Nat
  deriving DecidableEq, Repr

/-- `amd64_binary_format_t` (opcode.h:164-176). -/
structure Fmt where
  pfx : Nat := 0
  rex : Option Rex := none
  opc : List Nat := []
  modrm : Option Modrm := none
  sib : Option Sib := none
  disps : List Nat := []
  imms : List Nat := []
  deriving DecidableEq, Repr

/-- `build_ext` (opcode.c:1432-1540); the immediate extensions do nothing. -/
def buildExt (f : Fmt) : Ext → Fmt
  | .slash n => { f with modrm := some { f.modrm.getD {} with reg := n } }
  | .slashR => { f with modrm := some (f.modrm.getD {}) }
  | .rexW => { f with rex := some { f.rex.getD {} with w := true } }
  | .rex => { f with rex := some (f.rex.getD {}) }
  | _ => f

/-- `int32_to_uint8` (opcode.c:1565-1571): the four bytes, low first; `>>` on a negative `int32_t` is
an arithmetic shift. -/
def int32Bytes (d : Int) : List Nat :=
  [(d % 256).toNat, (d / 256 % 256).toNat, (d / 65536 % 256).toNat, (d / 16777216 % 256).toNat]

/-- `memcpy` of an `n` byte unsigned integer on a little endian machine (opcode.c:1921-1946). -/
def leBytes : Nat → Nat → List Nat
  | 0, _ => []
  | n + 1, v => v % 256 :: leBytes n (v / 256)

/-- `scale_to_sib_encoding` (opcode.c:1577-1593); `none` is the assertion failure. -/
def scaleEnc : Nat → Option Nat
  | 0 => some 0
  | 1 => some 0
  | 2 => some 1
  | 4 => some 2
  | 8 => some 3
  | _ => none

/-- `sib_reg->index ? sib_reg->index->index : 4` (opcode.c:1871, 1888). -/
def ixOf : Option Reg → Nat
  | some r => r.idx
  | none => 4

/-- Changes the REX prefix when the instruction has one (the `if (ext_exists[...])` guards). -/
def Fmt.setRex (f : Fmt) (on : Bool) (g : Rex → Rex) : Fmt := if on then { f with rex := f.rex.map g } else f

/-- The ModRM byte, created when missing (`new_modrm`, opcode.c:1424-1430). -/
def Fmt.setModrm (f : Fmt) (g : Modrm → Modrm) : Fmt := { f with modrm := some (g (f.modrm.getD {})) }

/-- One operand of `opcode_fill`'s loop (opcode.c:1661-1970).  `rexOn`: the row has REX or REX.W, or
`need_rex_ext` added it; `slashR`: the row has `/r`.  `none`: assertion failure or `error_exit`. -/
def fillOp (rexOn slashR : Bool) (f : Fmt) (e : Enc) : Operand → Option Fmt
  | .reg r => match e with
    | .rm => some ((f.setModrm fun m => { m with mod := 3, rm := r.idx % 8 }).setRex rexOn
        fun x => { x with b := decide (7 < r.idx) })
    | .reg =>
      let f := match f.modrm with
        | none => { f with modrm := some { mod := 3 } }
        | some _ => f
      if slashR then
        some ((f.setModrm fun m => { m with reg := r.idx % 8 }).setRex rexOn
          fun x => { x with r := decide (7 < r.idx) })
      else some f
    | .plus =>
      some ({ f with opc := match f.opc with
                      | o :: os => (o + r.idx % 8) :: os
                      | [] => [] }.setRex rexOn fun x => { x with b := decide (7 < r.idx) })
    | .imm => none
  | .disp r d _ => match e with
    | .rm =>
      let short := decide (-128 ≤ d) && decide (d ≤ 127)
      some ({ (f.setModrm fun m => { m with rm := r.idx % 8, mod := if short then 1 else 2 }) with
          disps := (int32Bytes d).take (if short then 1 else 4) }.setRex rexOn
        fun x => { x with b := decide (7 < r.idx) })
    | _ => none
  | .ind r _ => match e with
    | .rm =>
      let five := r.idx == 13 || r.idx == 5
      some ({ (f.setModrm fun m => { m with rm := r.idx, mod := if five then 1 else 0 }) with
          disps := if five then [0] else [] }.setRex rexOn fun x => { x with b := decide (7 < r.idx) })
    | .reg =>
      let f := match f.modrm with
        | none => { f with modrm := some { mod := 1 } }
        | some _ => f
      some ((f.setModrm fun m => { m with reg := r.idx }).setRex rexOn fun x => { x with r := decide (7 < r.idx) })
    | _ => none
  | .rip d _ => match e with
    | .rm => some { (f.setModrm fun m => { m with mod := 0, rm := 5 }) with disps := int32Bytes d }
    | .reg => some { (f.setModrm fun m => { m with mod := 0, reg := 5 }) with disps := int32Bytes d }
    | _ => some f
  | .seg s off =>
    some { (f.setModrm fun m => { m with mod := 0, rm := 4 }) with
      pfx := match s with
        | .fs => 0x64
        | .gs => 0x65
        | .other => f.pfx
      sib := some ⟨0, 4, 5⟩
      disps := int32Bytes off }
  | .sib base index scale d _ => match e with
    | .rm => do
      let sc ← scaleEnc scale
      let ix := ixOf index
      match base with
      | none =>
        some ({ (f.setModrm fun m => { m with rm := 4, mod := 0 }) with
            sib := some ⟨sc, ix, 5⟩, disps := int32Bytes d }.setRex rexOn
          fun x => { x with x := decide (7 < ix) })
      | some b =>
        let f := { f with sib := some ⟨sc, ix, b.idx⟩ }.setRex rexOn
          fun x => { x with x := decide (7 < ix), b := decide (7 < b.idx) }
        let f := if d = 0 then f.setModrm fun m => { m with rm := 4, mod := 0 }
          else if -128 ≤ d ∧ d ≤ 127 then
            { (f.setModrm fun m => { m with rm := 4, mod := 1 }) with disps := [(d % 256).toNat] }
          else { (f.setModrm fun m => { m with rm := 4, mod := 2 }) with disps := int32Bytes d }
        -- "r13/rbp Special case treatment" (opcode.c:1910-1914)
        some (if b.idx = 13 ∨ b.idx = 5 then
          { (f.setModrm fun m => { m with mod := 1 }) with disps := [0] } else f)
    | _ => some f
  | .u64 v => some { f with imms := leBytes 8 v }
  | .u32 v | .uint v => some { f with imms := leBytes 4 v }
  | .u16 v => some { f with imms := leBytes 2 v }
  | .u8 v => some { f with imms := [v] }

/-- The loop of `opcode_fill` (opcode.c:1661-1970): the formal operands against the actual ones. -/
def fillOps (rexOn slashR : Bool) : Fmt → List (OpTy × Enc) → List Operand → Option Fmt
  | f, (_, e) :: es, o :: os => (fillOp rexOn slashR f e o).bind fun f => fillOps rexOn slashR f es os
  | f, _, _ => some f

/-- `opcode_fill` (opcode.c:1630-1973). -/
def fill (row : Row) (i : Inst) : Option Fmt :=
  let f : Fmt := { pfx := row.pfx, opc := row.opc }
  let f := row.exts.foldl buildExt f
  let f := if i.needRex && !row.hasRex then buildExt f .rex else f
  fillOps (row.hasRex || i.needRex) (row.exts.contains .slashR) f row.ops i.ops

/-- `opcode_rex_encoding` (opcode.c:2028-2046). -/
def rexByte (r : Rex) : Nat :=
  (if r.b then 1 else 0) + (if r.x then 2 else 0) + (if r.r then 4 else 0) + (if r.w then 8 else 0) + 64

/-- `opcode_modrm_encoding` (opcode.c:2048-2056); the fields do not overlap, so `|` is `+`. -/
def modrmByte (m : Modrm) : Nat := m.rm % 8 + m.reg % 8 * 8 + m.mod * 64

/-- `opcode_sib_encoding` (opcode.c:2058-2063). -/
def sibByte (s : Sib) : Nat := s.base % 8 + s.index % 8 * 8 + s.scale * 64

/-- `opcode_format_encoding` (opcode.c:2065-2100).  Opcode bytes are written while they are not zero. -/
def Fmt.bytes (f : Fmt) : List Nat :=
  (if f.pfx = 0 then [] else [f.pfx]) ++ (f.rex.map rexByte).toList ++
  f.opc.takeWhile (fun b => decide (0 < b)) ++
  (f.modrm.map modrmByte).toList ++ (f.sib.map sibByte).toList ++ f.disps ++ f.imms

/-- `amd64_asm_inst_encoding` (opcode.c:2102-2120).  `none` is an assertion failure. -/
def encode (i : Inst) : Option (List Nat) := do
  let row ← select i
  let f ← fill row i
  return f.bytes

end Nature.Amd64
