/-!
# Statements and expressions that reach the lowering to LIR

The abstract syntax consumed by /repo/src/linear.c, restricted to control flow: literals, local
scalars, binary operators, short circuit operators, the conditional expression, calls, `match`,
`catch`, and the statements assignment, `if`, the two `for` forms, `break`, `continue`, `return`,
`ret`, `throw`, `defer` and `try`/`catch`.  Aggregate types, closures, `select`, `for in` and the
memory operators are left out.
-/
namespace Nature.Linear

/-- Run time values.  `n` is a 64 bit integer, `f` a float (`none` is a NaN and the numbers stand
for the ordered part of the type), `o` everything else (pointers, strings).
/repo/src/types.h (TYPE_BOOL, TYPE_INT64, TYPE_FLOAT64, pointers). -/
inductive Val where
  | b (v : Bool)
  | n (v : BitVec 64)
  | f (v : Option Int)
  | o (v : Nat)
  deriving DecidableEq, Repr, Inhabited

/-- Comparison operators, /repo/src/ast.h (AST_OP_LT … AST_OP_NE). -/
inductive Cmp where
  | lt | le | gt | ge | ee | ne
  deriving DecidableEq, Repr

/-- The type of the left operand of a comparison as far as code generation looks at it:
`is_unsigned(left.type.kind)`, float, `TYPE_STRING`, or a signed scalar (bool included). -/
inductive Kind where
  | s | u | f | str
  deriving DecidableEq, Repr

/-- A local: a variable of the program, or a temporary made by the compiler
(`temp_var_operand`, /repo/src/lir.h:745-760). -/
inductive Name where
  | src (x : Nat)
  | tmp (t : Nat)
  deriving DecidableEq, Repr

/-- How a callee can fail.  `plain`: it cannot.  `errable`: declared with `!`, checked by
`linear_has_error`.  `panics`: a run time operation (index, cast) checked by `linear_has_panic`. -/
inductive Fail where
  | plain | errable | panics
  deriving DecidableEq, Repr

mutual
/-- Expressions.  `void` marks an expression of type void.  The `id` of a `mtchS` stands for the
identity of the syntax tree node, which `linear_match_expr` updates in place. -/
inductive Expr where
  | lit (v : Val)
  | var (x : Name)
  | arith (o : Nat) (l r : Expr)
  | cmp (k : Kind) (c : Cmp) (l r : Expr)
  | and (l r : Expr)
  | or (l r : Expr)
  | tern (c l r : Expr)
  | call (f : Nat) (fail : Fail) (void : Bool) (args : Args)
  | mtch (void : Bool) (cases : Cases)
  | mtchS (id : Nat) (void : Bool) (k : Kind) (subject : Expr) (cases : Cases)
  | ctch (void : Bool) (dflt : Option Val) (e : Expr) (x : Nat) (body : Body)
/-- Argument lists, also the conditions `a, b` of one `match` case. -/
inductive Args where
  | nil
  | cons (e : Expr) (rest : Args)
/-- The cases of a `match`.  The last one may be the default case `_`. -/
inductive Cases where
  | last (dflt : Bool) (conds : Args) (body : Body)
  | cons (conds : Args) (body : Body) (rest : Cases)
/-- Statements.  `set` is both `var x = e` and `x = e`. -/
inductive Stmt where
  | expr (e : Expr)
  | set (x : Nat) (e : Expr)
  | ite (c : Expr) (t e : Body)
  | forC (c : Expr) (b : Body)
  | forT (init : Stmt) (c : Expr) (upd : Stmt) (b : Body)
  | brk
  | cont
  | retV
  | retE (e : Expr)
  | ret (e : Expr)
  | throw (e : Expr)
  | defer (b : Body)
  | try (b : Body) (x : Nat) (h : Body)
/-- Blocks. -/
inductive Body where
  | nil
  | cons (s : Stmt) (rest : Body)
end

/-- The 64 bits of a scalar. -/
def Val.bits : Val → BitVec 64
  | .b v => if v then 1 else 0
  | .n v => v
  | .f _ => 0
  | .o v => BitVec.ofNat 64 v

/-- The float in a value of float type. -/
def Val.flt : Val → Option Int
  | .f v => v
  | _ => some 0

/-- A comparison of two numbers of an ordered type. -/
def cmpOrd (c : Cmp) (x y : Int) : Bool :=
  match c with
  | .lt => decide (x < y)
  | .le => decide (x ≤ y)
  | .gt => decide (x > y)
  | .ge => decide (x ≥ y)
  | .ee => decide (x = y)
  | .ne => decide (x ≠ y)

/-- A comparison of two floats: every ordering with a NaN is false, and `!=` is true. -/
def cmpFlt (c : Cmp) : Option Int → Option Int → Bool
  | some x, some y => cmpOrd c x y
  | _, _ => decide (c = .ne)

/-- The rest of the program and of the run time, as seen by one function: what operators compute,
and what a call does.  A call gets the arguments, the error pending on the coroutine
(`co->has_error`, `co->error`, /repo/runtime/runtime.h:442) and the state of the world; it returns a
value, the error pending afterwards and the new world.  The world can be anything, for instance the
list of everything printed so far. -/
structure Ext where
  W : Type
  arith : Nat → Val → Val → Val
  strCmp : Cmp → Val → Val → Bool
  call : Nat → List Val → Option Val → W → Val × Option Val × W

/-- The value of a comparison at an operand type. -/
def cmpVal (X : Ext) (k : Kind) (c : Cmp) (v w : Val) : Bool :=
  match k with
  | .s => cmpOrd c v.bits.toInt w.bits.toInt
  | .u => cmpOrd c v.bits.toNat w.bits.toNat
  | .f => cmpFlt c v.flt w.flt
  | .str => X.strCmp c v w

end Nature.Linear
