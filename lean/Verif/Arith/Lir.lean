import Verif.Arith.Spec
/-
The LIR of integer expressions: src/linear.c.
-/
namespace Nature.Arith

/-- The registers after register allocation.  Register allocation is not modelled: every variable `v`, every temporary `t` of the
lowering to LIR and every temporary `l` a target's own lowering makes has a register of its own, and none of them is one of the
machine registers `s` the lowering names. -/
inductive R
  | v (x : Nat)
  | t (n : Nat)
  | l (n : Nat)
  | s (n : Nat)
deriving DecidableEq, Repr

inductive Opd
  | reg (r : R)
  | imm (v : BitVec 64)
deriving DecidableEq, Repr

/-- src/lir.h `lir_opcode_t`: those for integers. -/
inductive Code
  | add | sub | mul | udiv | sdiv | urem | srem | ushl | ushr | sshr | and | or | xor
  | slt | sle | sgt | sge | uslt | usle | usgt | usge | see | sne
  | not | neg | uext | sext | trunc | move
deriving DecidableEq, Repr

/-- An LIR operation: `kind` is the type of the output, `from_` the type of the first operand. -/
structure Lir where
  code : Code
  first : Opd
  second : Opd
  out : R
  kind : Kind
  from_ : Kind

/-- linear.c:11-33 `ast_op_convert`. -/
def binCode : BinOp → Code
  | .add => .add
  | .sub => .sub
  | .mul => .mul
  | .div => .sdiv
  | .rem => .srem
  | .shl => .ushl
  | .shr => .sshr
  | .and => .and
  | .or => .or
  | .xor => .xor

def cmpCode : CmpOp → Code
  | .lt => .slt
  | .le => .sle
  | .gt => .sgt
  | .ge => .sge
  | .eq => .see
  | .ne => .sne

/-- linear.c:2244-2262: the opcode for unsigned operands. -/
def toUnsigned : Code → Code
  | .sshr => .ushr
  | .sdiv => .udiv
  | .srem => .urem
  | .slt => .uslt
  | .sle => .usle
  | .sgt => .usgt
  | .sge => .usge
  | c => c

/-- linear.c:2242-2262: `left` is the type of the left operand; `is_unsigned` (types.h) is false for `bool`. -/
def opcodeFor (c : Code) (left : Kind) : Code :=
  match left with
  | .int _ false => toUnsigned c
  | _ => c

/-- linear.c:3215-3237: the conversion between integer types; sizes are compared. -/
def castCode (src dst : Kind) : Code :=
  match src with
  | .bool => .uext
  | .int w s =>
    if w.bits < dst.bits then (if s then .sext else .uext)
    else if dst.bits < w.bits then .trunc
    else .move

def isImm : Opd → Bool
  | .imm _ => true
  | .reg _ => false

/-- linear.c:2313 and the operands: both are computed, then the operation. `n` is the first unused temporary. -/
def compile : {k : Kind} → Expr k → Nat → List Lir × Opd × Nat
  -- linear_ident
  | _, .var _ x, n => ([], .reg (.v x), n)
  -- linear.c:3851-3881 linear_literal
  | _, .lit _ v, n => ([], .imm (BitVec.ofInt 64 v), n)
  -- linear.c:2227-2316 linear_binary
  | _, .bin op w s a b, n =>
    let (la, x, n1) := compile a n
    let (lb, y, n2) := compile b n1
    (la ++ lb ++ [⟨opcodeFor (binCode op) (.int w s), x, y, .t n2, .int w s, .int w s⟩], .reg (.t n2), n2 + 1)
  | _, @Expr.cmp op k a b, n =>
    let (la, x, n1) := compile a n
    let (lb, y, n2) := compile b n1
    (la ++ lb ++ [⟨opcodeFor (cmpCode op) k, x, y, .t n2, .bool, k⟩], .reg (.t n2), n2 + 1)
  -- linear.c:2335-2440 linear_unary.  The negation of a literal (2357-2369) is left out: the analyzer has folded it.
  | _, .neg w s a, n =>
    let (la, x, n1) := compile a n
    (la ++ [⟨.neg, x, x, .t n1, .int w s, .int w s⟩], .reg (.t n1), n1 + 1)
  | _, .bnot w s a, n =>
    let (la, x, n1) := compile a n
    (la ++ [⟨.not, x, x, .t n1, .int w s, .int w s⟩], .reg (.t n1), n1 + 1)
  -- linear.c:2371-2387
  | _, .not a, n =>
    let (la, x, n1) := compile a n
    match x with
    | .imm v => (la, .imm (if v = 0 then 1 else 0), n1)
    | x => (la ++ [⟨.xor, x, .imm 1, .t n1, .bool, .bool⟩], .reg (.t n1), n1 + 1)
  -- linear.c:3202-3237 linear_as_expr
  | _, @Expr.cast k w s a, n =>
    let (la, x, n1) := compile a n
    if k = .int w s then (la, x, n1)
    else (la ++ [⟨castCode k (.int w s), x, x, .t n1, .int w s, k⟩], .reg (.t n1), n1 + 1)

/-- The value of type `k` a 64-bit register holds: its low bits. -/
def val (k : Kind) (x : BitVec 64) : Int := if k.signed then (x.setWidth k.bits).toInt else ((x.setWidth k.bits).toNat : Int)

/-- The value the low `n` bits represent. -/
def ival (s : Bool) (n : Nat) (x : BitVec 64) : Int := if s then (x.setWidth n).toInt else ((x.setWidth n).toNat : Int)

def Opd.get (regs : R → BitVec 64) : Opd → BitVec 64
  | .reg r => regs r
  | .imm v => v

def upd (regs : R → BitVec 64) (r : R) (v : BitVec 64) : R → BitVec 64 := fun q => if q = r then v else regs q

structure Flags where
  n : Bool
  z : Bool
  c : Bool
  v : Bool
deriving DecidableEq, Repr

structure St where
  regs : R → BitVec 64
  flags : Flags

end Nature.Arith
