/-
What number literals and constant expressions mean.
-/
import Verif.Scan.Spec
import Verif.Literal.Model
namespace Nature.Literal
open Nature.Scan (IsDecimal)
open Nature.Parse (Expr Un Bin)

/-- The numbers of a type. -/
def Kind.min : Kind → Int
  | .i8 => -2 ^ 7 | .i16 => -2 ^ 15 | .i32 => -2 ^ 31 | .i64 => -2 ^ 63
  | _ => 0

def Kind.max : Kind → Int
  | .i8 => 2 ^ 7 - 1 | .i16 => 2 ^ 15 - 1 | .i32 => 2 ^ 31 - 1 | .i64 => 2 ^ 63 - 1
  | .u8 => 2 ^ 8 - 1 | .u16 => 2 ^ 16 - 1 | .u32 => 2 ^ 32 - 1 | .u64 => 2 ^ 64 - 1

def Kind.Has (k : Kind) (v : Int) : Prop := k.min ≤ v ∧ v ≤ k.max

/-- A sign and decimal digits without leading zeros stand for the number. -/
def Written (neg : Bool) (w : List Char) (v : Int) : Prop := ∃ n : Nat, IsDecimal n w ∧ v = if neg then -(n : Int) else n

/-- The number fits into 64 bits with a sign. -/
def Fits (v : Int) : Prop := -2 ^ 63 ≤ v ∧ v < 2 ^ 63

/-- A bit of a number, in two's complement. -/
def bit (x : Int) (i : Nat) : Bool := x / 2 ^ i % 2 == 1

/-- The mathematical value of a constant expression, all of whose parts fit into 64 bits. -/
inductive Means : Expr → Int → Prop
  | int {neg : Bool} {w : List Char} {v : Int} : Written neg w v → Fits v → Means (.int neg w) v
  | neg {a : Expr} {x : Int} : Means a x → Fits (-x) → Means (.un .neg a) (-x)
  | bnot {a : Expr} {x v : Int} : Means a x → Fits v → (∀ i, i < 64 → bit v i = !bit x i) → Means (.un .bnot a) v
  | add {a b : Expr} {x y : Int} : Means a x → Means b y → Fits (x + y) → Means (.bin .add a b) (x + y)
  | sub {a b : Expr} {x y : Int} : Means a x → Means b y → Fits (x - y) → Means (.bin .sub a b) (x - y)
  | mul {a b : Expr} {x y : Int} : Means a x → Means b y → Fits (x * y) → Means (.bin .mul a b) (x * y)
  /-- Towards zero. -/
  | div {a b : Expr} {x y : Int} : Means a x → Means b y → y ≠ 0 → Fits (x.tdiv y) → Means (.bin .div a b) (x.tdiv y)
  | rem {a b : Expr} {x y : Int} : Means a x → Means b y → y ≠ 0 → Fits (x.tdiv y) → Means (.bin .rem a b) (x - y * x.tdiv y)
  | and {a b : Expr} {x y v : Int} : Means a x → Means b y → Fits v → (∀ i, i < 64 → bit v i = (bit x i && bit y i)) →
      Means (.bin .and a b) v
  | or {a b : Expr} {x y v : Int} : Means a x → Means b y → Fits v → (∀ i, i < 64 → bit v i = (bit x i || bit y i)) →
      Means (.bin .or a b) v
  | xor {a b : Expr} {x y v : Int} : Means a x → Means b y → Fits v → (∀ i, i < 64 → bit v i = (bit x i ^^ bit y i)) →
      Means (.bin .xor a b) v
  | shl {a b : Expr} {x : Int} {s : Nat} : Means a x → Means b s → s < 64 → Fits (x * 2 ^ s) → Means (.bin .lshift a b) (x * 2 ^ s)
  | shr {a b : Expr} {x : Int} {s : Nat} : Means a x → Means b s → s < 64 → Means (.bin .rshift a b) (x / 2 ^ s)

/-! ### Execution -/

inductive Val
  | int (v : BitVec 64)
  | bool (b : Bool)
  | str (w : List Char)
deriving DecidableEq

/-- What happens when an expression is executed: it has a value, the program fails, or nothing is said here. -/
inductive Run
  | val (v : Val)
  | fails
  | unknown
deriving DecidableEq

def Run.then (r : Run) (f : Val → Run) : Run :=
  match r with
  | .val v => f v
  | .fails => .fails
  | .unknown => .unknown

/-- The machine: 64 bits, wrapping.  A division by zero, or one that overflows, fails.  Nothing is said about shifts by 64 or more, and
about operations on operands they are not made for. -/
def machine : Bin → Val → Val → Run
  | .add, .int a, .int b => .val (.int (a + b))
  | .sub, .int a, .int b => .val (.int (a - b))
  | .mul, .int a, .int b => .val (.int (a * b))
  | .div, .int a, .int b => if b = 0 ∨ (a = BitVec.intMin 64 ∧ b = -1) then .fails else .val (.int (BitVec.ofInt 64 (a.toInt.tdiv b.toInt)))
  | .rem, .int a, .int b => if b = 0 ∨ (a = BitVec.intMin 64 ∧ b = -1) then .fails else .val (.int (BitVec.ofInt 64 (a.toInt.tmod b.toInt)))
  | .and, .int a, .int b => .val (.int (a &&& b))
  | .or, .int a, .int b => .val (.int (a ||| b))
  | .xor, .int a, .int b => .val (.int (a ^^^ b))
  | .lshift, .int a, .int b => if b.toNat < 64 then .val (.int (a <<< b.toNat)) else .unknown
  | .rshift, .int a, .int b => if b.toNat < 64 then .val (.int (a.sshiftRight b.toNat)) else .unknown
  | .lt, .int a, .int b => .val (.bool (a.toInt < b.toInt))
  | .le, .int a, .int b => .val (.bool (a.toInt ≤ b.toInt))
  | .gt, .int a, .int b => .val (.bool (a.toInt > b.toInt))
  | .ge, .int a, .int b => .val (.bool (a.toInt ≥ b.toInt))
  | .ee, a, b => .val (.bool (a = b))
  | .ne, a, b => .val (.bool (a ≠ b))
  | .add, .str u, .str v => .val (.str (u ++ v))
  | _, _, _ => .unknown

def machine1 : Un → Val → Run
  | .neg, .int a => .val (.int (-a))
  | .bnot, .int a => .val (.int (~~~a))
  | .not, .bool b => .val (.bool (!b))
  | _, _ => .unknown

/-- The execution of an expression of ints, bools and strings, given the values of its variables.  Nothing is said about literals that
are errors, about string literals with a zero character, and about other kinds of expressions. -/
def eval (ρ : List Char → Val) : Expr → Run
  | .int n w =>
    match compile .i64 n w with
    | .ok v => .val (.int (BitVec.ofInt 64 v))
    | .err => .unknown
  | .bool b => .val (.bool b)
  | .str w => if '\x00' ∈ w then .unknown else .val (.str w)
  | .ident w => .val (ρ w)
  | .un o a => (eval ρ a).then fun x => machine1 o x
  | .bin .andAnd a b => (eval ρ a).then fun
    | .bool true => eval ρ b
    | .bool false => .val (.bool false)
    | _ => .unknown
  | .bin .orOr a b => (eval ρ a).then fun
    | .bool true => .val (.bool true)
    | .bool false => eval ρ b
    | _ => .unknown
  | .bin o a b => (eval ρ a).then fun x => (eval ρ b).then fun y => machine o x y
  | .cond c a b => (eval ρ c).then fun
    | .bool true => eval ρ a
    | .bool false => eval ρ b
    | _ => .unknown
  | _ => .unknown

end Nature.Literal
