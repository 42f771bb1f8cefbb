/-
Integer expressions and what they mean: arithmetic on mathematical integers, wrapped to the type.
Nothing in this file refers to registers or instructions.
-/
namespace Nature.Arith

inductive Width
  | w8 | w16 | w32 | w64
deriving DecidableEq, Repr

def Width.bits : Width → Nat
  | .w8 => 8
  | .w16 => 16
  | .w32 => 32
  | .w64 => 64

/-- The integer types `i8 … u64` (`int` and `uint` are `i64` and `u64`), and `bool`. -/
inductive Kind
  | int (w : Width) (signed : Bool)
  | bool
deriving DecidableEq, Repr

def Kind.width : Kind → Width
  | .int w _ => w
  | .bool => .w8

def Kind.signed : Kind → Bool
  | .int _ s => s
  | .bool => false

abbrev Kind.bits (k : Kind) : Nat := k.width.bits

/-- The values of a type. -/
def InRange : Kind → Int → Prop
  | .bool, v => v = 0 ∨ v = 1
  | .int w true, v => -2 ^ (w.bits - 1) ≤ v ∧ v < 2 ^ (w.bits - 1)
  | .int w false, v => 0 ≤ v ∧ v < 2 ^ w.bits

instance (k : Kind) (v : Int) : Decidable (InRange k v) := by
  cases k with
  | bool => unfold InRange; infer_instance
  | int w s => cases s <;> (unfold InRange; infer_instance)

/-- The value of the type that differs from `v` by a multiple of `2 ^ bits`. -/
def wrap (k : Kind) (v : Int) : Int :=
  if k.signed then (v + 2 ^ (k.bits - 1)) % 2 ^ k.bits - 2 ^ (k.bits - 1) else v % 2 ^ k.bits

inductive BinOp
  | add | sub | mul | div | rem | and | or | xor | shl | shr
deriving DecidableEq, Repr

inductive CmpOp
  | lt | le | gt | ge | eq | ne
deriving DecidableEq, Repr

/-- A bitwise operation on the two's complement representations. -/
def bitwise (k : Kind) (f : BitVec k.bits → BitVec k.bits → BitVec k.bits) (a b : Int) : Int :=
  wrap k (f (BitVec.ofInt k.bits a) (BitVec.ofInt k.bits b)).toInt

/-- The binary operators.  Division rounds towards zero and the remainder has the sign of the dividend; shifting right rounds down.
No meaning (`none`): division by zero, the one quotient that is no value of its type, and shifts by a negative number or by the
number of bits or more. -/
def specBin (op : BinOp) (k : Kind) (a b : Int) : Option Int :=
  match op with
  | .add => some (wrap k (a + b))
  | .sub => some (wrap k (a - b))
  | .mul => some (wrap k (a * b))
  | .div => if b = 0 ∨ ¬ InRange k (a.tdiv b) then none else some (a.tdiv b)
  | .rem => if b = 0 ∨ ¬ InRange k (a.tdiv b) then none else some (a.tmod b)
  | .and => some (bitwise k (· &&& ·) a b)
  | .or => some (bitwise k (· ||| ·) a b)
  | .xor => some (bitwise k (· ^^^ ·) a b)
  | .shl => if 0 ≤ b ∧ b < k.bits then some (wrap k (a * 2 ^ b.toNat)) else none
  | .shr => if 0 ≤ b ∧ b < k.bits then some (a / 2 ^ b.toNat) else none

def specCmp (op : CmpOp) (a b : Int) : Bool :=
  match op with
  | .lt => decide (a < b)
  | .le => decide (a ≤ b)
  | .gt => decide (b < a)
  | .ge => decide (b ≤ a)
  | .eq => decide (a = b)
  | .ne => decide (a ≠ b)

/-- Expressions with the type of their value: variables, literals, the operators of integers, comparisons, `!`, and `as` between
integer types and from `bool`. -/
inductive Expr : Kind → Type
  | var (k : Kind) (x : Nat) : Expr k
  | lit (k : Kind) (v : Int) : Expr k
  | bin (op : BinOp) (w : Width) (s : Bool) (a b : Expr (.int w s)) : Expr (.int w s)
  | cmp (op : CmpOp) {k : Kind} (a b : Expr k) : Expr .bool
  | neg (w : Width) (s : Bool) (a : Expr (.int w s)) : Expr (.int w s)
  | bnot (w : Width) (s : Bool) (a : Expr (.int w s)) : Expr (.int w s)
  | not (a : Expr .bool) : Expr .bool
  | cast {k : Kind} (w : Width) (s : Bool) (a : Expr k) : Expr (.int w s)

/-- The value of an expression. -/
def eval (ρ : Nat → Int) : {k : Kind} → Expr k → Option Int
  | _, .var _ x => some (ρ x)
  | _, .lit _ v => some v
  | _, .bin op w s a b => (eval ρ a).bind fun x => (eval ρ b).bind fun y => specBin op (.int w s) x y
  | _, .cmp op a b => (eval ρ a).bind fun x => (eval ρ b).bind fun y => some (if specCmp op x y then 1 else 0)
  | _, .neg w s a => (eval ρ a).bind fun x => some (wrap (.int w s) (-x))
  | _, .bnot w s a => (eval ρ a).bind fun x => some (wrap (.int w s) (-x - 1))
  | _, .not a => (eval ρ a).bind fun x => some (1 - x)
  | _, .cast w s a => (eval ρ a).bind fun x => some (wrap (.int w s) x)

/-- Variables hold values of their types, and literals are values of theirs. -/
def WellTyped (ρ : Nat → Int) : {k : Kind} → Expr k → Prop
  | _, .var k x => InRange k (ρ x)
  | _, .lit k v => InRange k v
  | _, .bin _ _ _ a b => WellTyped ρ a ∧ WellTyped ρ b
  | _, .cmp _ a b => WellTyped ρ a ∧ WellTyped ρ b
  | _, .neg _ _ a => WellTyped ρ a
  | _, .bnot _ _ a => WellTyped ρ a
  | _, .not a => WellTyped ρ a
  | _, .cast _ _ a => WellTyped ρ a

/-- Every variable of the expression, with the type it is used at, satisfies `P`. -/
def AllVars (P : Kind → Nat → Prop) : {k : Kind} → Expr k → Prop
  | _, .var k x => P k x
  | _, .lit _ _ => True
  | _, .bin _ _ _ a b => AllVars P a ∧ AllVars P b
  | _, .cmp _ a b => AllVars P a ∧ AllVars P b
  | _, .neg _ _ a => AllVars P a
  | _, .bnot _ _ a => AllVars P a
  | _, .not a => AllVars P a
  | _, .cast _ _ a => AllVars P a

end Nature.Arith
