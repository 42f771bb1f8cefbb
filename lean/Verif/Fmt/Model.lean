/-
Model of /repo/std/fmt/utils.n (number to text) and of `sprintf` and `sscanf` of /repo/std/fmt/fmt.n.

Bytes are `UInt8`.  Integers of a type with N bits are `Int`s in its range, `wrapS N` is what the hardware keeps of a
result.  Indices into the format are modelled by the bytes that remain.  The text of a floating point number is a
parameter (`Floats`): `ftos_with` is not modelled.
-/
namespace Nature.Fmt

abbrev Byte := UInt8

/-- The N-bit two's complement value of an integer. -/
def wrapS (N : Nat) (i : Int) : Int := (i + 2 ^ (N - 1)) % 2 ^ N - 2 ^ (N - 1)

/-- `rem as u8 + ascii('0')`, utils.n:195: both in u8. -/
def digitChar (rem : Int) : Byte := UInt8.ofNat (rem % 256).toNat + 48

/-- utils.n:193-198: the loop of `itos_with`, in the order of its pushes.  `%` and `/` round towards zero.  20 rounds
are enough for 64 bits (theorem `digits_ends`). -/
def digits : Nat → Int → List Byte
  | 0, _ => []
  | f + 1, i => if i = 0 then [] else digitChar (i.tmod 10) :: digits f (i.tdiv 10)

/-- utils.n:166-233 `itos_with<T>`, T signed with N bits. -/
def itosWith (N : Nat) (v : Int) (fill : Byte) (width : Nat) : List Byte :=
  let neg := decide (v < 0)
  let i := if neg then wrapS N (-v) else v
  if i = 0 then
    if width = 0 then [48] else List.replicate width fill
  else
    let result := digits 20 i
    let rw := if neg then result.length + 1 else result.length
    let pad := List.replicate (width - rw) fill
    let sign : List Byte := if neg then [45] else []
    if fill = 32 then (result ++ sign ++ pad).reverse else (result ++ pad ++ sign).reverse

/-- utils.n:161-163 `itos`. -/
def itos (N : Nat) (v : Int) : List Byte := itosWith N v 48 0

/-- The character of a digit: utils.n:52-56 and 98-102 (`letter` is `a` or `A`), 140 for base 10. -/
def unsignedChar (letter : Byte) (rem : Nat) : Byte :=
  if rem < 10 then UInt8.ofNat rem + 48 else UInt8.ofNat (rem - 10) + letter

/-- utils.n:50-59, 96-105, 138-143: the loops for unsigned types, in the order of the pushes. -/
def digitsU (base : Nat) (letter : Byte) : Nat → Nat → List Byte
  | 0, _ => []
  | f + 1, i => if i = 0 then [] else unsignedChar letter (i % base) :: digitsU base letter f (i / base)

/-- utils.n:29-70 `utos_hex_with`, 75-116 `utos_hex_upper_with`, 119-158 `utos_with`: the same but for the base and
the letters. -/
def utosWith (base : Nat) (letter : Byte) (v : Nat) (fill : Byte) (width : Nat) : List Byte :=
  if v = 0 then
    if width = 0 then [48] else List.replicate width fill
  else
    let result := digitsU base letter 20 v
    (result ++ List.replicate (width - result.length) fill).reverse

/-! ### sprintf -/

/-- An argument, as `any`: its kind and value.  Integers are given by the bits they occupy. -/
inductive Arg
  | int (N : Nat) (bits : Nat)
  | uint (N : Nat) (bits : Nat)
  | str (s : List Byte)
  | bool (b : Bool)
  | f32 (bits : Nat)
  | f64 (bits : Nat)
  | null
  | other
deriving DecidableEq

/-- `ftos_with` (utils.n:240-327), not modelled: fill, width, precision. -/
structure Floats where
  f32 : Nat → Byte → Nat → Nat → List Byte
  f64 : Nat → Byte → Nat → Nat → List Byte

/-- The value of N bits as a signed integer. -/
def asSigned (N bits : Nat) : Int := wrapS N bits

/-- `%!c` (fmt.n:67-70 and the default arms). -/
def bang (c : Byte) : List Byte := [37, 33, c]

/-- fmt.n:87-218: the text of one argument. -/
def fmtArg (F : Floats) (fill : Byte) (width prec : Nat) (c : Byte) (a : Arg) : List Byte :=
  if c = 100 then -- d
    match a with
    | .int N b => itosWith N (asSigned N b) fill width
    | .uint _ b => utosWith 10 97 b fill width
    | _ => bang c
  else if c = 115 then -- s
    match a with
    | .str s => s
    | _ => bang c
  else if c = 99 then -- c
    match a with
    | .uint 8 b => [UInt8.ofNat b]
    | _ => bang c
  else if c = 102 then -- f
    match a with
    | .f32 b => F.f32 b fill width prec
    | .f64 b => F.f64 b fill width prec
    | _ => bang c
  else if c = 120 then -- x
    match a with
    | .int _ b => utosWith 16 97 b fill width
    | .uint _ b => utosWith 16 97 b fill width
    | _ => bang c
  else if c = 88 then -- X
    match a with
    | .int _ b => utosWith 16 65 b fill width
    | .uint _ b => utosWith 16 65 b fill width
    | _ => bang c
  else -- v
    match a with
    | .int N b => itos N (asSigned N b)
    | .uint _ b => utosWith 10 97 b 48 0
    | .f32 b => F.f32 b 48 0 6
    | .f64 b => F.f64 b 48 0 6
    | .bool b => if b then [116, 114, 117, 101] else [102, 97, 108, 115, 101]
    | .str s => s
    | .null => [110, 117, 108, 108]
    | .other => bang c

def isDigit (c : Byte) : Bool := 48 ≤ c && c ≤ 57

/-- fmt.n:38-45 and 54-57: a number in u8 (wrapping), and the bytes after it. -/
def number : UInt8 → List Byte → UInt8 × List Byte
  | acc, [] => (acc, [])
  | acc, c :: t => if isDigit c then number (acc * 10 + (c - 48)) t else (acc, c :: t)

/-- One directive, after its `%`: fill, width, precision, verb, rest. -/
structure Dir where
  fill : Byte
  width : Nat
  prec : Nat
  verb : Byte
  rest : List Byte

/-- fmt.n:48-60: precision and verb. -/
def directiveTail (fill : Byte) (width : UInt8) : List Byte → Option Dir
  | [] => none
  | c :: t =>
    if c = 46 then
      match number 0 t with
      | (_, []) => none
      | (p, c :: t) => some ⟨fill, width.toNat, p.toNat, c, t⟩
    else some ⟨fill, width.toNat, 6, c, t⟩

/-- fmt.n:29-60; `none`: an index beyond the format. -/
def directive : List Byte → Option Dir
  | [] => none
  | c :: t =>
    if c = 48 then directiveTail 48 (number 0 t).1 (number 0 t).2
    else directiveTail 32 (number 0 (c :: t)).1 (number 0 (c :: t)).2

/-- fmt.n:73 -/
def verbs : List Byte := [118, 99, 100, 115, 102, 120, 88]

/-- fmt.n:7-222 `sprintf`; `none`: an index out of range (panic).  The fuel is the length of the format. -/
def sprintfGo (F : Floats) : Nat → List Byte → List Arg → Option (List Byte)
  | 0, f, _ => if f = [] then some [] else none
  | n + 1, f, args =>
    match f with
    | [] => some []
    | c :: t =>
      if c ≠ 37 then (sprintfGo F n t args).map (c :: ·)
      else if t = [] then some []
      else
        match directive t with
        | none => none
        | some d =>
          if d.verb = 37 then (sprintfGo F n d.rest args).map (37 :: ·)
          else
            match args with
            | [] => (sprintfGo F n d.rest []).map (bang d.verb ++ ·)
            | a :: as =>
              if d.verb ∉ verbs then (sprintfGo F n d.rest (a :: as)).map ([37, 63, d.verb] ++ ·)
              else (sprintfGo F n d.rest as).map (fmtArg F d.fill d.width d.prec d.verb a ++ ·)

def sprintf (F : Floats) (format : List Byte) (args : List Arg) : Option (List Byte) :=
  sprintfGo F format.length format args

end Nature.Fmt
