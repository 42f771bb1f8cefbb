import Verif.Fmt.Model
/-
Model of `sscanf`, /repo/std/fmt/fmt.n:232-639.  The two strings are modelled by the bytes that remain of them, the
arguments by the kinds of pointers they are; the result is the count returned and, for each argument that was reached,
what was stored through it, if anything.  Widths are natural numbers (int in the code).  `%f` is a parameter: it takes
the width and the text and gives the bits of the value and the rest of the text.
-/
namespace Nature.Fmt

/-- What an argument points to. -/
inductive Ptr
  | int (N : Nat)
  | uint (N : Nat)
  | str
  | float
  | other

/-- What is stored. -/
inductive Val
  | int (i : Int)
  | uint (n : Nat)
  | str (s : List Byte)
  | float (bits : Nat)
deriving DecidableEq, Repr

/-- What `%f` does (fmt.n:568-634, not modelled): width and text to bits and remaining text. -/
abbrev ScanF := Nat → List Byte → Option (Nat × List Byte)

/-- fmt.n:252-254, 301-303: spaces are skipped. -/
def skipSp (s : List Byte) : List Byte := s.dropWhile (· = 32)

/-- fmt.n:286-290 -/
def scanWidth : Nat → List Byte → Nat × List Byte
  | acc, [] => (acc, [])
  | acc, c :: t => if isDigit c then scanWidth (acc * 10 + (c.toNat - 48)) t else (acc, c :: t)

/-- fmt.n:330-339: the digits of `%d`, in i64; the flag says whether there was one. -/
def scanDec (width : Nat) : Nat → Int → Bool → List Byte → Int × Bool × List Byte
  | _, v, h, [] => (v, h, [])
  | cnt, v, h, c :: t =>
    if (width = 0 ∨ cnt < width) ∧ isDigit c then scanDec width (cnt + 1) (wrapS 64 (v * 10 + (c.toNat - 48 : Nat))) true t
    else (v, h, c :: t)

/-- fmt.n:406-417 -/
def hexDigit (c : Byte) : Option Nat :=
  if 48 ≤ c ∧ c ≤ 57 then some (c.toNat - 48)
  else if 97 ≤ c ∧ c ≤ 102 then some ((c - 97 + 10).toNat)
  else if 65 ≤ c ∧ c ≤ 70 then some ((c - 65 + 10).toNat)
  else none

/-- fmt.n:393-423: the digits of `%x`, in u64. -/
def scanHex (width : Nat) : Nat → Nat → Bool → List Byte → Nat × Bool × List Byte
  | _, v, h, [] => (v, h, [])
  | cnt, v, h, c :: t =>
    if width = 0 ∨ cnt < width then
      match hexDigit c with
      | some d => scanHex width (cnt + 1) ((v * 16 + d) % 2 ^ 64) true t
      | none => (v, h, c :: t)
    else (v, h, c :: t)

/-- fmt.n:463-481: the digits of `%o`, in u64. -/
def scanOct (width : Nat) : Nat → Nat → Bool → List Byte → Nat × Bool × List Byte
  | _, v, h, [] => (v, h, [])
  | cnt, v, h, c :: t =>
    if (width = 0 ∨ cnt < width) ∧ 48 ≤ c ∧ c ≤ 55 then scanOct width (cnt + 1) ((v * 8 + (c.toNat - 48)) % 2 ^ 64) true t
    else (v, h, c :: t)

/-- fmt.n:521-534: the bytes of `%s`. -/
def scanWord (width : Nat) : Nat → List Byte → List Byte × List Byte
  | _, [] => ([], [])
  | cnt, c :: t =>
    if (width = 0 ∨ cnt < width) ∧ c ≠ 32 then (c :: (scanWord width (cnt + 1) t).1, (scanWord width (cnt + 1) t).2)
    else ([], c :: t)

/-- fmt.n:349-390: what `%d` stores. -/
def storeDec (neg : Bool) (v : Int) : Ptr → Option Val
  | .int N => some (.int (wrapS N v))
  | .uint N => if neg then none else some (.uint (v % 2 ^ N).toNat)
  | _ => none

/-- fmt.n:429-460, 487-518: what `%x` and `%o` store. -/
def storeU (v : Nat) : Ptr → Option Val
  | .int N => some (.int (wrapS N v))
  | .uint N => some (.uint (v % 2 ^ N))
  | _ => none

/-- fmt.n:313-347: sign and digits of `%d`; `none`: no digit, the scan ends. -/
def specDec (width : Nat) (p : Ptr) (s : List Byte) : Option (Option Val × List Byte) :=
  let (neg, cnt, s1) := match s with
    | 45 :: t => (true, 1, t)
    | 43 :: t => (false, 1, t)
    | _ => (false, 0, s)
  let (v, h, rest) := scanDec width cnt 0 false s1
  if h then
    let v := if neg then wrapS 64 (-v) else v
    some (storeDec neg v p, rest)
  else none

/-- fmt.n:312-634: one directive on the text, which is not empty and does not start with a space. -/
def scanSpec (F : ScanF) (spec : Byte) (width : Nat) (p : Ptr) (s : List Byte) : Option (Option Val × List Byte) :=
  if spec = 100 then specDec width p s
  else if spec = 120 ∨ spec = 88 then
    let (v, h, rest) := scanHex width 0 0 false s
    if h then some (storeU v p, rest) else none
  else if spec = 111 then
    let (v, h, rest) := scanOct width 0 0 false s
    if h then some (storeU v p, rest) else none
  else if spec = 115 then
    let (w, rest) := scanWord width 0 s
    some (if 0 < w.length then (match p with | .str => some (.str w) | _ => none) else none, rest)
  else if spec = 99 then
    let w := if width = 0 then 1 else width
    if w ≤ s.length then
      if w = 1 then some (match p with | .uint 8 => (s.head?.map fun b => .uint b.toNat) | _ => none, s.drop 1)
      else some (match p with | .str => some (.str (s.take w)) | _ => none, s.drop w)
    else some (none, s)
  else if spec = 102 then
    match F width s with
    | some (b, rest) => some (match p with | .float => some (.float b) | _ => none, rest)
    | none => none
  else some (none, s)

/-- fmt.n:244-636: the loop.  The fuel is the length of the format. -/
def scanGo (F : ScanF) : Nat → List Byte → List Byte → List Ptr → Nat × List (Option Val)
  | 0, _, _, _ => (0, [])
  | n + 1, f, s, args =>
    match f, s with
    | [], _ => (0, [])
    | _, [] => (0, [])
    | fc :: f, sc :: s =>
      if fc ≠ 37 then
        if fc = 32 then scanGo F n f (skipSp (sc :: s)) args
        else if sc = fc then scanGo F n f s args
        else (0, [])
      else if f.head? = some 37 then
        if sc = 37 then scanGo F n f.tail s args else (0, [])
      else
        match args with
        | [] => (0, [])
        | p :: ps =>
          match scanWidth 0 f with
          | (_, []) => (0, [])
          | (width, spec :: f2) =>
            match skipSp (sc :: s) with
            | [] => (0, [])
            | c :: t =>
              match scanSpec F spec width p (c :: t) with
              | none => (0, [])
              | some (v, rest) =>
                let (m, vs) := scanGo F n f2 rest ps
                (m + (if v.isSome then 1 else 0), v :: vs)

/-- fmt.n:232-639 `sscanf`. -/
def sscanf (F : ScanF) (text format : List Byte) (args : List Ptr) : Nat × List (Option Val) :=
  scanGo F format.length format text args

end Nature.Fmt
