/-!
# Instructions of a basic block and what they do (specification)

The intermediate code of one block after lowering, as far as the peephole pass looks at it.  The meaning is independent of the pass:
a state has variables, machine registers and a memory; an instruction reads its operands and writes its output.  Values are integers;
an instruction of width `w` only sees and produces their residue modulo `2 ^ w`.  Integer move, addition, subtraction and
multiplication have their usual meaning; everything else is an arbitrary function (`Interp`).
-/
namespace Nature.Peephole

/-- The type an instruction works on. -/
structure Ty where
  width : Nat
  float : Bool
deriving DecidableEq

/-- Operands of lir.h: `LIR_OPERAND_VAR` (with `LIR_FLAG_CONST`, and whether `imm_value` is 2.0), `LIR_OPERAND_REG`, `LIR_OPERAND_IMM`,
and memory (`LIR_OPERAND_STACK`, `LIR_OPERAND_INDIRECT_ADDR`: which address, and the variables it is made of). -/
inductive Operand
  | var (v : Nat) (const : Bool) (two : Bool)
  | reg (r : Nat)
  | imm (n : Int)
  | mem (k : Nat) (uses : List Nat)
deriving DecidableEq

/-- Operation codes.  `elim` are the others of `lir_can_mov_eliminable` (lir.h:1346-1373), `other` everything else.  `lea` is the
instruction the amd64 pass makes: `first` is the index, `twice` whether it is the base as well. -/
inductive Code
  | move | add | sub | mul
  | madd | msub | fmadd | fmsub | fnmsub
  | lea (twice : Bool) (scale : Int) (disp : Int)
  | elim (k : Nat)
  | other (k : Nat)
deriving DecidableEq

/-- `lir_op_t`; `args` and `defs` are the variables of operands that are lists (arguments, parameters, phi bodies). -/
structure Op where
  code : Code
  ty : Ty
  first : Option Operand
  second : Option Operand
  addend : Option Operand
  output : Option Operand
  args : List Nat := []
  defs : List Nat := []
deriving DecidableEq

/-- The state of a program. -/
structure State (M : Type) where
  vars : Nat → Int
  regs : Nat → Int
  mem : M

/-- The meaning of everything the pass does not look into. -/
structure Interp (M : Type) where
  load : Nat → List Int → (Nat → Int) → M → Int
  store : Nat → List Int → (Nat → Int) → M → Int → M
  elim : Nat → Ty → Int → Int → Int
  /-- floating point: addition, subtraction, multiplication, fused operations -/
  fadd : Nat → Int → Int → Int
  fsub : Nat → Int → Int → Int
  fmul : Nat → Int → Int → Int
  ffma : Nat → Int → Int → Int → Int
  ffms : Nat → Int → Int → Int → Int
  ffnms : Nat → Int → Int → Int → Int
  other : Nat → Ty → Int → Int → Int → List Int → (Nat → Int) → M → Int × (Nat → Int) × (Nat → Int) × M

variable {M : Type}

/-- The value of an operand. -/
def eval (I : Interp M) (s : State M) : Operand → Int
  | .var v _ _ => s.vars v
  | .reg r => s.regs r
  | .imm n => n
  | .mem k uses => I.load k (uses.map s.vars) s.regs s.mem

/-- A missing operand counts as 0. -/
def evalOpt (I : Interp M) (s : State M) : Option Operand → Int
  | none => 0
  | some o => eval I s o

/-- Bits of a value. -/
def cut (w : Nat) (x : Int) : Int := x % 2 ^ w

/-- The displacement of an address is a signed number of 32 bits (the field of the instruction, Intel SDM 2.2.1.3). -/
def disp32 (d : Int) : Int := (d + 2 ^ 31) % 2 ^ 32 - 2 ^ 31

/-- The result of an operation. -/
def compute (I : Interp M) (code : Code) (ty : Ty) (a b c : Int) : Int :=
  let w := ty.width
  match code with
  | .move => cut w a
  | .add => if ty.float then I.fadd w (cut w a) (cut w b) else cut w (a + b)
  | .sub => if ty.float then I.fsub w (cut w a) (cut w b) else cut w (a - b)
  | .mul => if ty.float then I.fmul w (cut w a) (cut w b) else cut w (a * b)
  | .madd => cut w (c + a * b)
  | .msub => cut w (c - a * b)
  | .fmadd => I.ffma w (cut w a) (cut w b) (cut w c)
  | .fmsub => I.ffms w (cut w a) (cut w b) (cut w c)
  | .fnmsub => I.ffnms w (cut w a) (cut w b) (cut w c)
  | .lea twice scale disp => cut w ((if twice then a else 0) + a * scale + disp32 disp)
  | .elim k => I.elim k ty (cut w a) (cut w b)
  | .other _ => 0

/-- Write a result; the address of a memory operand is computed in the state before. -/
def put (I : Interp M) (s : State M) (value : Int) : Option Operand → State M
  | some (.var v _ _) => { s with vars := fun u => if u = v then value else s.vars u }
  | some (.reg r) => { s with regs := fun q => if q = r then value else s.regs q }
  | some (.mem k uses) => { s with mem := I.store k (uses.map s.vars) s.regs s.mem value }
  | _ => s

/-- One instruction. -/
def step (I : Interp M) (op : Op) (s : State M) : State M :=
  let a := evalOpt I s op.first
  let b := evalOpt I s op.second
  let c := evalOpt I s op.addend
  match op.code with
  | .other k =>
    let r := I.other k op.ty a b c (op.args.map s.vars) s.regs s.mem
    let s' : State M := ⟨fun u => if u ∈ op.defs then r.2.1 u else s.vars u, r.2.2.1, r.2.2.2⟩
    match op.output with
    | some (.var v _ _) => { s' with vars := fun u => if u = v then r.1 else s'.vars u }
    | some (.reg q) => { s' with regs := fun x => if x = q then r.1 else s'.regs x }
    | some (.mem k uses) => { s' with mem := I.store k (uses.map s.vars) s.regs s'.mem r.1 }
    | _ => s'
  | code => put I s (compute I code op.ty a b c) op.output

/-- A block. -/
def run (I : Interp M) : List Op → State M → State M
  | [], s => s
  | op :: ops, s => run I ops (step I op s)

/-- What the rest of the program can see behind a block: registers, memory and the variables that are still needed. -/
def Same (live : List Nat) (s s' : State M) : Prop :=
  s.regs = s'.regs ∧ s.mem = s'.mem ∧ ∀ v ∈ live, s.vars v = s'.vars v

/-- A variable operand has the type of its variable. -/
def Typed (vt : Nat → Ty) (ty : Ty) : Option Operand → Prop
  | some (.var v _ _) => vt v = ty
  | _ => True

/-- The type of the result: comparisons (among `elim`) may have another one. -/
def outTy (et : Nat → Ty → Ty) (op : Op) : Ty :=
  match op.code with
  | .elim k => et k op.ty
  | _ => op.ty

/-- Code as lowering leaves it: the operands and the result of moves and arithmetic have the type of the instruction; immediate
operands of floating point arithmetic have been replaced (`arm64_lower_imm`). -/
def Lowered (vt : Nat → Ty) (et : Nat → Ty → Ty) (op : Op) : Prop :=
  match op.code with
  | .other _ => True
  | _ => Typed vt op.ty op.first ∧ Typed vt op.ty op.second ∧ Typed vt op.ty op.addend ∧ Typed vt (outTy et op) op.output ∧
      (op.ty.float = true → ∀ n, op.second ≠ some (.imm n)) ∧ op.args = [] ∧ op.defs = []

/-- The results of the operations fit their type. -/
def Sized (I : Interp M) (et : Nat → Ty → Ty) : Prop :=
  (∀ k ty a b, cut (et k ty).width (I.elim k ty a b) = I.elim k ty a b) ∧
  (∀ w a b, cut w (I.fadd w a b) = I.fadd w a b) ∧ (∀ w a b, cut w (I.fsub w a b) = I.fsub w a b) ∧
  (∀ w a b, cut w (I.fmul w a b) = I.fmul w a b) ∧ (∀ w a b c, cut w (I.ffma w a b c) = I.ffma w a b c) ∧
  (∀ w a b c, cut w (I.ffms w a b c) = I.ffms w a b c) ∧ (∀ w a b c, cut w (I.ffnms w a b c) = I.ffnms w a b c)

end Nature.Peephole
