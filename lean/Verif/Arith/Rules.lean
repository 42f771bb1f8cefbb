import Verif.Arith.Lir
/-
What the theorems assume of an expression, target by target.
-/
namespace Nature.Arith

/-- What is known of a target: the number of bits its operations on a type work with, and, operator by operator, whether the result
fills all these bits with the value (`ex…`, from whether the operands do) and what is assumed of the operands (`ok…`: whether they
fill the bits, the second operand if it is a literal, the two values). -/
structure Rules where
  native : Width → Nat
  exBin : BinOp → Width → Bool → (ea eb : Bool) → Bool
  okBin : BinOp → Width → Bool → (ea eb : Bool) → Option (BitVec 64) → (a b : Int) → Prop
  okCmp : CmpOp → Kind → (ea eb : Bool) → Option (BitVec 64) → Prop
  exNeg : Width → Bool → (ea : Bool) → Bool
  exNot : Width → Bool → (ea : Bool) → Bool
  exCast : Kind → Width → Bool → (ea : Bool) → Bool
  okCast : Kind → Width → Bool → (ea : Bool) → Prop

/-- The rules of a target whose operations work with registers wider than some types.  A register with the right value may have other
bits above it (after `+`, for instance): shifts left, sums, differences and products need only the value; quotients, remainders,
shifts right and comparisons need the bits above it to be its extension.  `bin` and `cmp` are what is assumed of literals. -/
def Rules.wide (native : Width → Nat) (bin : BinOp → Width → Option (BitVec 64) → Prop) (cmp : CmpOp → Kind → Option (BitVec 64) → Prop)
    (exCast : Kind → Width → Bool → Bool → Bool) (okCast : Kind → Width → Bool → Bool → Prop) : Rules where
  native := native
  exBin op w s ea eb :=
    native w == w.bits ||
    match op with
    | .add | .sub | .mul | .shl => false
    | .and | .or | .xor => ea && eb
    | .div | .rem | .shr => true
  okBin op w s ea eb i _ _ := bin op w i ∧
    match op with
    | .div | .rem => (native w = w.bits ∨ ea = true) ∧ (native w = w.bits ∨ eb = true)
    | .shr => native w = w.bits ∨ ea = true
    | _ => True
  okCmp op k ea eb i := cmp op k i ∧ (native k.width = k.bits ∨ ea = true) ∧ (native k.width = k.bits ∨ eb = true)
  exNeg w _ _ := native w == w.bits
  exNot w s ea := native w == w.bits || (s && ea)
  exCast k w s ea := native w == w.bits || exCast k w s ea
  okCast := okCast

/-- The literal an expression is for the instruction selection. -/
def immOf : {k : Kind} → Expr k → Option (BitVec 64)
  | _, .lit _ v => some (BitVec.ofInt 64 v)
  | _, .not a => (immOf a).map fun v => if v = 0 then 1 else 0
  | _, @Expr.cast k w s a => if k = .int w s then immOf a else none
  | _, _ => none

/-- Whether the register of the result is filled with its value, sign or zero extended. -/
def exact (T : Rules) : {k : Kind} → Expr k → Bool
  | _, .var _ _ => true
  | _, .lit _ _ => true
  | _, .bin op w s a b => T.exBin op w s (exact T a) (exact T b)
  | _, .cmp _ _ _ => true
  | _, .neg w s a => T.exNeg w s (exact T a)
  | _, .bnot w s a => T.exNot w s (exact T a)
  | _, .not a => exact T a
  | _, @Expr.cast k w s a => if k = .int w s then exact T a else T.exCast k w s (exact T a)

/-- Every operation in the expression meets the assumptions. -/
def Ok (T : Rules) (ρ : Nat → Int) : {k : Kind} → Expr k → Prop
  | _, .var _ _ => True
  | _, .lit _ _ => True
  | _, .bin op w s a b => Ok T ρ a ∧ Ok T ρ b ∧
      ∀ x y, eval ρ a = some x → eval ρ b = some y → T.okBin op w s (exact T a) (exact T b) (immOf b) x y
  | _, @Expr.cmp op k a b => Ok T ρ a ∧ Ok T ρ b ∧ T.okCmp op k (exact T a) (exact T b) (immOf b)
  | _, .neg _ _ a => Ok T ρ a
  | _, .bnot _ _ a => Ok T ρ a
  | _, .not a => Ok T ρ a
  | _, @Expr.cast k w s a => Ok T ρ a ∧ (k = .int w s ∨ T.okCast k w s (exact T a))

end Nature.Arith
