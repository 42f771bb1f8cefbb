/-
Model of number literals and constant folding: /repo/src/semantic/analyzer.c (analyzer_constant_folding), /repo/src/semantic/infer.c
(infer_literal), /repo/utils/type.h (integer_range_check), /repo/src/linear.c (linear_literal).

A literal is a sign and a text of digits: that is what the scanner and the parser make (Parse: `Expr.int`); the scanner has converted
numbers with a prefix to decimal.  So the letters of `strtoll` with base 0 (`0x`, and `0b` in some C libraries) do not occur.
-/
import Verif.Parse.Model
namespace Nature.Literal
open Nature.Scan (dec hexValue)
open Nature.Parse (Expr Un Bin)

/-! ### C library -/

/-- C: the digits of a base in `strtoll` and `strtoull`; the value so far, and what is left after them. -/
def digits (base : Nat) : Nat → List Char → Nat × List Char
  | n, [] => (n, [])
  | n, c :: r => if '0' ≤ c ∧ c.toNat < '0'.toNat + base then digits base (n * base + hexValue c) r else (n, c :: r)

/-- C: base 0 means octal after a zero, and decimal otherwise. -/
def base0 : List Char → Nat
  | '0' :: _ => 8
  | _ => 10

/-- C: `strtoll`, which saturates. -/
def clampS (neg : Bool) (n : Nat) : Int :=
  if neg then max (-(n : Int)) (-2 ^ 63) else min (n : Int) (2 ^ 63 - 1)

/-- C: `strtoull`, which saturates, and negates modulo 2^64. -/
def clampU (neg : Bool) (n : Nat) : Int :=
  if n < 2 ^ 64 then (if neg then (2 ^ 64 - (n : Int)) % 2 ^ 64 else n) else 2 ^ 64 - 1

/-- C: `atoll`, which has base 10. -/
def atoll (neg : Bool) (w : List Char) : Int := clampS neg (digits 10 0 w).1

/-- C: `strtoll(text, 0, 0)`. -/
def strtoll0 (neg : Bool) (w : List Char) : Int := clampS neg (digits (base0 w) 0 w).1

/-! ### Types -/

/-- utils/type.h:75-84: the integer types; int is i64, uint is u64, and anyptr is handled as u64. -/
inductive Kind
  | i8 | u8 | i16 | u16 | i32 | u32 | i64 | u64
deriving DecidableEq, Repr

/-- utils/type.h:1084-1106 `integer_range_check` of an int64_t. -/
def rangeCheck : Kind → Int → Bool
  | .u8, i => 0 ≤ i && i ≤ 2 ^ 8 - 1
  | .i8, i => -2 ^ 7 ≤ i && i ≤ 2 ^ 7 - 1
  | .u16, i => 0 ≤ i && i ≤ 2 ^ 16 - 1
  | .i16, i => -2 ^ 15 ≤ i && i ≤ 2 ^ 15 - 1
  | .u32, i => 0 ≤ i && i ≤ 2 ^ 32 - 1
  | .i32, i => -2 ^ 31 ≤ i && i ≤ 2 ^ 31 - 1
  | .u64, _ => true
  | .i64, _ => true

def isUnsigned : Kind → Bool
  | .u8 | .u16 | .u32 | .u64 => true
  | _ => false

/-- A value, or a reported error. -/
inductive Res
  | ok (v : Int)
  | err
deriving DecidableEq, Repr

/-- infer.c:3296-3309 `infer_literal` with an integer target, then linear.c:3857-3888 `linear_literal`. -/
def compile (k : Kind) (neg : Bool) (w : List Char) : Res :=
  if rangeCheck k (atoll neg w) then
    let p := digits (base0 w) 0 w
    if p.2 = [] then .ok (if isUnsigned k then clampU neg p.1 else clampS neg p.1) else .err
  else .err

/-- infer.c:4095-4115: the value of an enumerator. -/
def enumValue (k : Kind) (neg : Bool) (w : List Char) : Res := if rangeCheck k (atoll neg w) then .ok (atoll neg w) else .err

/-! ### Folding -/

/-- Folding ends with an expression, with undefined behaviour of C, or with a trap: the compiler dies. -/
inductive Out (α : Type)
  | ok (a : α)
  | undef
  | trap

def Out.bind {α β : Type} (x : Out α) (f : α → Out β) : Out β :=
  match x with
  | .ok a => f a
  | .undef => .undef
  | .trap => .trap

/-- C: a result of int64_t arithmetic, undefined if it does not fit. -/
def fit (v : Int) : Out Int := if -2 ^ 63 ≤ v ∧ v < 2 ^ 63 then .ok v else .undef

/-- A bit operation on two int64_t. -/
def bits (f : BitVec 64 → BitVec 64 → BitVec 64) (a b : Int) : Int := (f (BitVec.ofInt 64 a) (BitVec.ofInt 64 b)).toInt

/-- analyzer.c:1766-1815: the operations on two int64_t; nothing if the operation is left as it is.  A left shift of a signed number
is defined by the compiler as a shift of its bits. -/
def intOp : Bin → Int → Int → Option (Out Int)
  | .add, a, b => some (fit (a + b))
  | .sub, a, b => some (fit (a - b))
  | .mul, a, b => some (fit (a * b))
  | .div, a, b => if b = 0 then none else some (if a = -2 ^ 63 ∧ b = -1 then .trap else .ok (a.tdiv b))
  | .rem, a, b => if b = 0 then none else some (if a = -2 ^ 63 ∧ b = -1 then .trap else .ok (a.tmod b))
  | .and, a, b => some (.ok (bits (· &&& ·) a b))
  | .or, a, b => some (.ok (bits (· ||| ·) a b))
  | .xor, a, b => some (.ok (bits (· ^^^ ·) a b))
  | .lshift, a, b => some (if 0 ≤ b ∧ b < 64 then .ok ((BitVec.ofInt 64 a) <<< b.toNat).toInt else .undef)
  | .rshift, a, b => some (if 0 ≤ b ∧ b < 64 then .ok ((BitVec.ofInt 64 a).sshiftRight b.toNat).toInt else .undef)
  | _, _, _ => none

/-- `snprintf("%ld")`: the literal for a number. -/
def lit (v : Int) : Expr := .int (decide (v < 0)) (dec v.natAbs)

/-- Floating point arithmetic of the compiler (analyzer.c:1721-1763, 1837-1858) is not modelled: whatever texts it makes. -/
structure Floats where
  bin : Bin → Expr → Expr → Option (List Char)
  neg : Expr → List Char

/-- analyzer.c:1691-1711: strings are joined up to their first zero byte. -/
def cstr (w : List Char) : List Char := w.takeWhile (· ≠ '\x00')

/-- analyzer.c:1682-1822 `analyzer_constant_folding` for a binary operation. -/
def foldBin (F : Floats) (o : Bin) (a b : Expr) : Out Expr :=
  match a, b with
  | .str u, .str v => .ok (if o = .add then .str (cstr u ++ cstr v) else .bin o a b)
  | .int n u, .int m v =>
    match intOp o (strtoll0 n u) (strtoll0 m v) with
    | some r => r.bind fun v => .ok (lit v)
    | none => .ok (.bin o a b)
  | .float _ _, .float _ _ | .float _ _, .int _ _ | .int _ _, .float _ _ =>
    match F.bin o a b with
    | some w => .ok (.float false w)
    | none => .ok (.bin o a b)
  | _, _ => .ok (.bin o a b)

/-- analyzer.c:1823-1901: the same for a unary operation. -/
def foldUn (F : Floats) (o : Un) (a : Expr) : Out Expr :=
  match a with
  | .int n w =>
    match o with
    | .neg => (fit (-(strtoll0 n w))).bind fun v => .ok (lit v)
    | .bnot => .ok (lit (-(strtoll0 n w) - 1))
    | _ => .ok (.un o a)
  | .float _ _ => .ok (if o = .neg then .float false (F.neg a) else .un o a)
  | .bool b => .ok (if o = .not then .bool (!b) else .un o a)
  | _ => .ok (.un o a)

mutual

/-- analyzer.c:1904-1917: operands first.  The rest of analyzer_expr (names, scopes) is not modelled here. -/
def fold (F : Floats) : Expr → Out Expr
  | .un o a => (fold F a).bind fun a => foldUn F o a
  | .bin o a b => (fold F a).bind fun a => (fold F b).bind fun b => foldBin F o a b
  | .cond c a b => (fold F c).bind fun c => (fold F a).bind fun a => (fold F b).bind fun b => .ok (.cond c a b)
  | .as e k => (fold F e).bind fun e => .ok (.as e k)
  | .select e w => (fold F e).bind fun e => .ok (.select e w)
  | .access e k => (fold F e).bind fun e => (fold F k).bind fun k => .ok (.access e k)
  | .slice e a b => (fold F e).bind fun e => (fold F a).bind fun a => (fold F b).bind fun b => .ok (.slice e a b)
  | .call e es s => (fold F e).bind fun e => (foldAll F es).bind fun es => .ok (.call e es s)
  | .tuple es => (foldAll F es).bind fun es => .ok (.tuple es)
  | .int n w => .ok (.int n w)
  | .float n w => .ok (.float n w)
  | .str w => .ok (.str w)
  | .bool b => .ok (.bool b)
  | .null => .ok .null
  | .ident w => .ok (.ident w)

def foldAll (F : Floats) : List Expr → Out (List Expr)
  | [] => .ok []
  | e :: es => (fold F e).bind fun e => (foldAll F es).bind fun es => .ok (e :: es)
end

end Nature.Literal
