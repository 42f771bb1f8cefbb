import Verif.Amd64.Lemmas
/-! The finite part: every path of keys under which the table stores something selects a row whose opcode
and operand encodings the decoder's table reads as the instruction asked for. -/
namespace Nature.Amd64
open Spec

/-- Does the decoder's operand form `f` find an operand of kind `k`, encoded by `e`, at width `w`? -/
def formOk (slashR : Bool) (e : Enc) (k : Key) (w : Nat) (f : Form) : Bool :=
  match e, k.1, f with
  | .rm, .reg, .E s => s == w && ((s == 1) == (k.2 == 1))
  | .rm, .freg, .W _ => true
  | .rm, .ind, .E s | .rm, .ind, .W s | .rm, .ind, .M s => s == w
  | .rm, .disp, .E s | .rm, .disp, .W s | .rm, .disp, .M s => s == w
  | .rm, .sib, .E s | .rm, .sib, .W s | .rm, .sib, .M s => s == w
  | .rm, .rip, .E s | .rm, .rip, .W s | .rm, .rip, .M s => s == w
  | .rm, .seg, .E s => s == w
  | .reg, .reg, .G s => slashR && s == w && ((s == 1) == (k.2 == 1))
  | .reg, .reg, .CL => !slashR && k.2 == 1 && w == 1
  | .reg, .freg, .V => slashR
  | .plus, .reg, .Z s => s == w && ((s == 1) == (k.2 == 1))
  | .imm, .u8, .I n => n == 1 && w == 1
  | .imm, .u16, .I n => n == 2 && w == 2
  | .imm, .u32, .I n => n == 4 && w == 4
  | .imm, .uint, .I n => n == 4 && w == 4
  | .imm, .u64, .I n => n == 8 && w == 8
  | _, _, _ => false

def formsOk (slashR : Bool) : List (OpTy × Enc) → List Key → List Nat → List Form → Bool
  | [], [], [], [] => true
  | (_, e) :: es, k :: ks, w :: ws, f :: fs => formOk slashR e k w f && formsOk slashR es ks ws fs
  | _, _, _, _ => false

/-- The orders of operand encodings in the table. -/
def patterns : List (List Enc) :=
  [[], [.imm], [.plus], [.plus, .imm], [.rm], [.rm, .imm], [.rm, .reg], [.reg, .rm], [.reg, .rm, .imm]]

def pfxOp16 (p : Nat) : Bool := p == 0x66
def pfxRep (p : Nat) : Nat := if p = 0xf2 then 2 else if p = 0xf3 then 3 else 0

/-- The ModRM byte before the operands. -/
def Row.base (r : Row) : Option Modrm := (r.exts.foldl buildExt {}).modrm
def Row.digit (r : Row) : Nat := (r.base.getD {}).reg
def Row.isSlashR (r : Row) : Bool := r.exts.contains .slashR
def Row.w (r : Row) : Bool := r.exts.contains .rexW

/-- The extensions do what they should. -/
def extsOk (r : Row) : Bool :=
  decide (r.exts.foldl buildExt { pfx := r.pfx, opc := r.opc } =
    { pfx := r.pfx, opc := r.opc, modrm := r.base, rex := if r.hasRex then some { w := r.w } else none }) &&
  decide (r.digit < 8) && decide (r.base = none ∨ r.base = some { reg := r.digit }) &&
  (!(r.ops.map (·.2)).contains .reg || r.base.isSome) && ((r.ops.map (·.2)).contains .rm || r.base.isNone)

/-- What the decoder sees for opcode byte `b` (second byte if `two`) gives mnemonic and forms `m`. -/
def seen (r : Row) (two : Bool) (b : Nat) (m : Mnem × List Form) : Bool :=
  (List.range 8).all fun k => (List.range 8).all fun g =>
    ((k != 0 && !(r.ops.map (·.2)).contains .plus) || (g != r.digit && !r.isSlashR && (r.ops.map (·.2)).contains .rm)) ||
    decide (lookup (pfxOp16 r.pfx) r.w (pfxRep r.pfx) two (b + k) g = some m) &&
      !isLegacy (b + k) && !isRex (b + k)

def opcOk (r : Row) (m : Mnem × List Form) : Bool :=
  match r.opc with
  | [b] => decide (0 < b) && decide (b ≠ 0x0f) && seen r false b m &&
      (!(r.ops.map (·.2)).contains .plus || (decide (0x0f < b) && decide (b % 8 = 0)))
  | [0x0f, c] => decide (0 < c) && !(r.ops.map (·.2)).contains .plus && seen r true c m
  | _ => false

/-- The row means what the request means. -/
def rowOk (r : Row) (n : Name) (ks : List Key) : Bool :=
  let m := match r.opc with
    | [b] => lookup (pfxOp16 r.pfx) r.w (pfxRep r.pfx) false b r.digit
    | [_, c] => lookup (pfxOp16 r.pfx) r.w (pfxRep r.pfx) true c r.digit
    | _ => none
  match m with
  | none => false
  | some (m, fs) =>
    (mnems n ks).contains m && formsOk r.isSlashR r.ops ks (widths n ks) fs &&
    opcOk r (m, fs) && extsOk r && patterns.contains (r.ops.map (·.2)) &&
    [0, 0x66, 0xf2, 0xf3].contains r.pfx && (!(ks.map (·.1)).contains .seg || r.pfx == 0) &&
    (fs.any Form.usesModrm == (r.ops.map (·.2)).contains .rm) &&
    (!(r.ops.map (·.2) == [.rm, .reg] && !r.isSlashR) || [Name.sal, .sar, .shr].contains n) &&
    (!(r.ops.map (·.2)).contains .reg || r.isSlashR || r.ops.map (·.2) == [.rm, .reg])

/-- The requests the table gets wrong. -/
def excl (n : Name) (ks : List Key) : Bool :=
  match n, ks with
  | .add, [(k, 1), (.reg, 1)] => k != .reg
  | .xor_, [(.freg, 8), _] => true
  | .xor_, [(.freg, 4), (k, _)] => k != .freg
  | _, _ => false

/-- All paths of keys of a row. -/
def paths : List (OpTy × Enc) → List (List Key)
  | [] => [[]]
  | (t, _) :: ts => (lowToHigh t).flatMap fun k => (paths ts).map (k :: ·)

def checkPath (n : Name) (ks : List Key) (high : Bool) : Bool :=
  match selectKey n ks high with
  | none => true
  | some r => !(high && r.hasRex) && decide (r.ops.length = ks.length) && (excl n ks || rowOk r n ks)

def checkRow (r : Row) : Bool :=
  (paths r.ops).all fun ks => checkPath r.group ks true && checkPath r.group ks false

end Nature.Amd64
