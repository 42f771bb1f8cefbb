import Verif.Fmt.Model
/-
Numerals, and formats as a list of pieces.
-/
namespace Nature.Fmt

/-- The value of a digit character; letters as in hexadecimal. -/
def digitVal (c : Byte) : Option Nat :=
  if 48 ≤ c ∧ c ≤ 57 then some (c.toNat - 48)
  else if 97 ≤ c ∧ c ≤ 102 then some (c.toNat - 87)
  else if 65 ≤ c ∧ c ≤ 70 then some (c.toNat - 55)
  else none

/-- The number a list of digits stands for, most significant first. -/
def value (base : Nat) (l : List Byte) : Option Nat :=
  l.foldl (fun acc c => acc.bind fun a => (digitVal c).bind fun d => if d < base then some (a * base + d) else none) (some 0)

/-- `l` is the usual way to write `n`: digits that stand for `n`, no needless zero in front. -/
structure Numeral (base : Nat) (l : List Byte) (n : Nat) : Prop where
  val : value base l = some n
  ne : l ≠ []
  lead : l.head? = some 48 → l = [48]

/-- The way to write an integer. -/
def Decimal (l : List Byte) (i : Int) : Prop :=
  if i < 0 then ∃ d, l = 45 :: d ∧ Numeral 10 d i.natAbs else Numeral 10 l i.natAbs

/-- The smallest and largest values of a signed type. -/
def InRange (N : Nat) (i : Int) : Prop := -2 ^ (N - 1) ≤ i ∧ i < 2 ^ (N - 1)

/-- A piece of a format. -/
inductive Piece
  /-- a byte that stands for itself -/
  | lit (c : Byte)
  /-- `%%` -/
  | percent
  /-- `%`, perhaps `0`, perhaps a width, perhaps a precision, and the verb -/
  | dir (zero : Bool) (width : List Byte) (prec : Option (List Byte)) (verb : Byte)

/-- The pieces a format may consist of. -/
def Piece.OK : Piece → Prop
  | .lit c => c ≠ 37
  | .percent => True
  | .dir zero width prec verb =>
    (∀ c ∈ width, 48 ≤ c ∧ c ≤ 57) ∧ (zero = false → width.head? ≠ some 48) ∧
      (∀ p, prec = some p → ∀ c ∈ p, 48 ≤ c ∧ c ≤ 57) ∧ ¬ (48 ≤ verb ∧ verb ≤ 57) ∧ verb ≠ 37 ∧ verb ≠ 46

/-- How a precision is written. -/
def precText : Option (List Byte) → List Byte
  | none => []
  | some p => 46 :: p

/-- How the piece is written. -/
def Piece.text : Piece → List Byte
  | .lit c => [c]
  | .percent => [37, 37]
  | .dir zero width prec verb =>
    37 :: ((if zero then [48] else []) ++ width ++ precText prec ++ [verb])

/-- The number a string of decimal digits stands for. -/
def decimalOf (l : List Byte) : Nat := l.foldl (fun a c => a * 10 + (c.toNat - 48)) 0

/-- The precision: 6 if none is given. -/
def precOf : Option (List Byte) → Nat
  | none => 6
  | some p => decimalOf p % 256

/-- What is printed for the pieces: arguments are used up from the left, one by each directive with a known verb. -/
def expand (F : Floats) : List Piece → List Arg → List Byte
  | [], _ => []
  | .lit c :: ps, args => c :: expand F ps args
  | .percent :: ps, args => 37 :: expand F ps args
  | .dir _ _ _ verb :: ps, [] => [37, 33, verb] ++ expand F ps []
  | .dir zero width prec verb :: ps, a :: as =>
    if verb ∈ ([118, 99, 100, 115, 102, 120, 88] : List Byte) then
      fmtArg F (if zero then 48 else 32) (decimalOf width % 256)
        (precOf prec) verb a ++ expand F ps as
    else [37, 63, verb] ++ expand F ps (a :: as)

end Nature.Fmt

namespace Nature.Fmt

/-- `l` brought to a width: with blanks in front, or with zeros after the sign. -/
def pad (zero : Bool) (width : Nat) (l : List Byte) : List Byte :=
  if zero then
    if l.head? = some 45 then 45 :: (List.replicate (width - l.length) 48 ++ l.tail)
    else List.replicate (width - l.length) 48 ++ l
  else List.replicate (width - l.length) 32 ++ l

/-- The bytes of an ASCII text. -/
def asciiOf (s : String) : List Byte := s.toList.map fun c => UInt8.ofNat c.toNat

/-- Integer arguments hold bits of their type. -/
def Arg.Ok : Arg → Prop
  | .int N b => 0 < N ∧ N ≤ 64 ∧ b < 2 ^ N
  | .uint N b => N ≤ 64 ∧ b < 2 ^ N
  | _ => True

/-- What the verb should print for an argument: `d` an integer in decimal, `x` and `X` its bits in hexadecimal, `s` a
string, `c` a byte, `f` a float (as given by `F`), `v` anything, without padding; and `%!` and the verb when the kind
does not fit.  Not said here (they are printed wrongly, see the counterexamples): the smallest value of a signed type in
decimal, and zero padded with blanks. -/
def Shown (F : Floats) (zero : Bool) (width prec : Nat) (verb : Byte) : Arg → List Byte → Prop
  | .int N b, out =>
    if verb = 100 then
      wrapS N b ≠ -2 ^ (N - 1) → (b = 0 → zero = true ∨ width = 0) → ∃ l, Decimal l (wrapS N b) ∧ out = pad zero width l
    else if verb = 118 then wrapS N b ≠ -2 ^ (N - 1) → Decimal out (wrapS N b)
    else if verb = 120 then
      (b = 0 → zero = true ∨ width = 0) → ∃ l, Numeral 16 l b ∧ (∀ c ∈ l, ¬ (65 ≤ c ∧ c ≤ 70)) ∧ out = pad zero width l
    else if verb = 88 then
      (b = 0 → zero = true ∨ width = 0) → ∃ l, Numeral 16 l b ∧ (∀ c ∈ l, ¬ (97 ≤ c ∧ c ≤ 102)) ∧ out = pad zero width l
    else out = [37, 33, verb]
  | .uint N b, out =>
    if verb = 100 then (b = 0 → zero = true ∨ width = 0) → ∃ l, Numeral 10 l b ∧ out = pad zero width l
    else if verb = 118 then Numeral 10 out b
    else if verb = 120 then
      (b = 0 → zero = true ∨ width = 0) → ∃ l, Numeral 16 l b ∧ (∀ c ∈ l, ¬ (65 ≤ c ∧ c ≤ 70)) ∧ out = pad zero width l
    else if verb = 88 then
      (b = 0 → zero = true ∨ width = 0) → ∃ l, Numeral 16 l b ∧ (∀ c ∈ l, ¬ (97 ≤ c ∧ c ≤ 102)) ∧ out = pad zero width l
    else if verb = 99 ∧ N = 8 then out = [UInt8.ofNat b]
    else out = [37, 33, verb]
  | .str s, out => if verb = 115 ∨ verb = 118 then out = s else out = [37, 33, verb]
  | .bool b, out => if verb = 118 then out = (if b then asciiOf "true" else asciiOf "false") else out = [37, 33, verb]
  | .f32 b, out => if verb = 102 then out = F.f32 b (if zero then 48 else 32) width prec
    else if verb = 118 then out = F.f32 b 48 0 6 else out = [37, 33, verb]
  | .f64 b, out => if verb = 102 then out = F.f64 b (if zero then 48 else 32) width prec
    else if verb = 118 then out = F.f64 b 48 0 6 else out = [37, 33, verb]
  | .null, out => if verb = 118 then out = asciiOf "null" else out = [37, 33, verb]
  | .other, out => out = [37, 33, verb]

/-- `out` is what should be printed for the pieces and the arguments. -/
inductive Printed (F : Floats) : List Piece → List Arg → List Byte → Prop
  | nil (args) : Printed F [] args []
  | lit {ps args out} (c) : Printed F ps args out → Printed F (.lit c :: ps) args (c :: out)
  | percent {ps args out} : Printed F ps args out → Printed F (.percent :: ps) args (37 :: out)
  /-- too few arguments: `%!` and the verb -/
  | missing {ps out} (zero width prec verb) : Printed F ps [] out →
      Printed F (.dir zero width prec verb :: ps) [] (37 :: 33 :: verb :: out)
  /-- a verb that does not exist: `%?` and the verb, the argument is kept -/
  | unknown {ps a args out} (zero width prec verb) : verb ∉ ([118, 99, 100, 115, 102, 120, 88] : List Byte) →
      Printed F ps (a :: args) out → Printed F (.dir zero width prec verb :: ps) (a :: args) (37 :: 63 :: verb :: out)
  | arg {ps a args o out} (zero width prec verb) : verb ∈ ([118, 99, 100, 115, 102, 120, 88] : List Byte) →
      Shown F zero (decimalOf width % 256) (precOf prec) verb a o → Printed F ps args out →
      Printed F (.dir zero width prec verb :: ps) (a :: args) (o ++ out)

end Nature.Fmt
