/-
Model of the scanner: /repo/src/syntax/scanner.c.

The source is the list of its bytes up to the terminating zero, each byte written as the character with that code; the cursor
(`guard`) is the list of the bytes that are left, and reading at its end gives the terminator.  Lines and columns are left out.
-/
namespace Nature.Scan

/-- What a call can end with: a value, a reported error (dump_errorf, after which the compiler exits), a read past the
terminator, or not at all. -/
inductive Out (α : Type)
  | ok (a : α)
  | err
  | past
  | endless
deriving DecidableEq, Repr

def Out.bind {α β : Type} (x : Out α) (f : α → Out β) : Out β :=
  match x with
  | .ok a => f a
  | .err => .err
  | .past => .past
  | .endless => .endless

/-- src/syntax/token.h: the keywords. -/
inductive Kw
  | kAny | kAs | kBool | kBreak | kCatch | kChan | kConst | kContinue | kDefer | kElse | kEnum | kF32 | kF64 | kFalse | kFloat
  | kFn | kFor | kGo | kI16 | kI32 | kI64 | kI8 | kIf | kImport | kIn | kInt | kInterface | kIs | kLet | kMatch | kNull | kPub
  | kReturn | kSelect | kString | kStruct | kTest | kThrow | kTrue | kTry | kType | kU16 | kU32 | kU64 | kU8 | kUint | kUnion
  | kVar | kVoid
deriving DecidableEq, Repr

/-- src/syntax/token.h: operators and punctuation. -/
inductive Sym
  | leftParen | rightParen | leftSquare | rightSquare | leftCurly | rightCurly | leftAngle | rightAngle | comma | dot | minus
  | plus | ellipsis | range | colon | semicolon | slash | star | percent | question | arrow | not | notEqual | equal | equalEqual
  | greaterEqual | lessEqual | andAnd | orOr | plusEqual | minusEqual | starEqual | slashEqual | percentEqual | andEqual | orEqual
  | xorEqual | leftShiftEqual | rightShiftEqual | tilde | and | or | xor | leftShift
deriving DecidableEq, Repr

/-- src/syntax/token.h: `token_type_t`. -/
inductive Ty
  | ident
  | kw (k : Kw)
  | sym (s : Sym)
  | importStar
  | macroIdent
  | label
  | str
  | float
  | int
  | eof
deriving DecidableEq, Repr

/-- src/syntax/token.h: `token_t`, without position. -/
structure Tok where
  ty : Ty
  text : List Char
deriving DecidableEq, Repr

/-! ### Characters -/

/-- scanner.c:92-94. -/
def isAlpha (c : Char) : Bool := ('a' ≤ c && c ≤ 'z') || ('A' ≤ c && c ≤ 'Z') || c == '_'

/-- scanner.c:96. -/
def isDigit (c : Char) : Bool := '0' ≤ c && c ≤ '9'

/-- scanner.c:98-100. -/
def isHex (c : Char) : Bool := ('0' ≤ c && c ≤ '9') || ('a' ≤ c && c ≤ 'f') || ('A' ≤ c && c ≤ 'F')

/-- scanner.c:102-104. -/
def isOct (c : Char) : Bool := '0' ≤ c && c ≤ '7'

/-- scanner.c:106-108. -/
def isBin (c : Char) : Bool := c == '0' || c == '1'

/-- scanner.c:143-152 `scanner_ident_advance`: the word and what follows it. -/
def isWord (c : Char) : Bool := isAlpha c || isDigit c

/-! ### Keywords -/

/-- scanner.c:388-394 `scanner_rest`; `r` is the part of the word from `rest_start` on. -/
def rest (r : List Char) (s : String) (k : Kw) : Option Kw := if r = s.toList then some k else none

/-- scanner.c:768-786: case 'f'; also reached from case 'e'. -/
def caseF : List Char → Option Kw
  | 'n' :: r => rest r "" .kFn
  | 'a' :: r => rest r "lse" .kFalse
  | 'l' :: r => rest r "oat" .kFloat
  | '3' :: r => rest r "2" .kF32
  | '6' :: r => rest r "4" .kF64
  | 'o' :: r => rest r "r" .kFor
  | _ => none

/-- scanner.c:880-896: case 'u'; also reached from case 'v'. -/
def caseU : List Char → Option Kw
  | 'i' :: r => rest r "nt" .kUint
  | '8' :: r => rest r "" .kU8
  | '1' :: r => rest r "6" .kU16
  | '3' :: r => rest r "2" .kU32
  | '6' :: r => rest r "4" .kU64
  | 'n' :: r => rest r "ion" .kUnion
  | _ => none

/-- scanner.c:913-915: case 'r'; also reached from case 'm'. -/
def caseR (r : List Char) : Option Kw := rest r "eturn" .kReturn

/-- scanner.c:729-744: case 'c'. -/
def caseC : List Char → Option Kw
  | 'o' :: r =>
    match r with
    | 'n' :: 't' :: r => rest r "inue" .kContinue
    | 'n' :: 's' :: r => rest r "t" .kConst
    | r => rest r "ntinue" .kContinue
  | 'a' :: r => rest r "tch" .kCatch
  | 'h' :: r => rest r "an" .kChan
  | _ => none

/-- scanner.c:789-815: case 'i'. -/
def caseI : List Char → Option Kw
  | ['n'] => some .kIn
  | ['s'] => some .kIs
  | ['n', 't'] => some .kInt
  | 'm' :: r => rest r "port" .kImport
  | 'f' :: r => rest r "" .kIf
  | 'n' :: r => rest r "terface" .kInterface
  | '8' :: r => rest r "" .kI8
  | '1' :: r => rest r "6" .kI16
  | '3' :: r => rest r "2" .kI32
  | '6' :: r => rest r "4" .kI64
  | _ => none

/-- scanner.c:830-851: case 's'. -/
def caseS : List Char → Option Kw
  | 'e' :: 'l' :: r => rest r "ect" .kSelect
  | 't' :: 'r' :: 'i' :: r => rest r "ng" .kString
  | 't' :: 'r' :: 'u' :: r => rest r "ct" .kStruct
  | _ => none

/-- scanner.c:852-874: case 't'. -/
def caseT : List Char → Option Kw
  | 'e' :: r => rest r "st" .kTest
  | 'h' :: r => rest r "row" .kThrow
  | 'y' :: r => rest r "pe" .kType
  | 'r' :: 'y' :: r => rest r "" .kTry
  | 'r' :: 'u' :: r => rest r "e" .kTrue
  | _ => none

/-- scanner.c:710-921 `scanner_ident`; `none` is `TOKEN_IDENT`. -/
def keyword : List Char → Option Kw
  | 'a' :: 's' :: r => rest r "" .kAs
  | 'a' :: 'n' :: r => rest r "y" .kAny
  | 'b' :: 'o' :: r => rest r "ol" .kBool
  | 'b' :: 'r' :: r => rest r "eak" .kBreak
  | 'c' :: r => caseC r
  | 'd' :: 'e' :: r => rest r "fer" .kDefer
  | 'e' :: r =>
    match r with
    | 'l' :: r => rest r "se" .kElse
    | 'n' :: r => rest r "um" .kEnum
    | r => caseF r
  | 'f' :: r => caseF r
  | 'g' :: r => rest r "o" .kGo
  | 'i' :: r => caseI r
  | 'l' :: r => rest r "et" .kLet
  | 'n' :: 'u' :: r => rest r "ll" .kNull
  | 'p' :: r => rest r "ub" .kPub
  | 's' :: r => caseS r
  | 't' :: r => caseT r
  | 'v' :: r =>
    match r with
    | 'a' :: r => rest r "r" .kVar
    | 'o' :: r => rest r "id" .kVoid
    | r => caseU r
  | 'u' :: r => caseU r
  | 'm' :: r =>
    match r with
    | 'a' :: 't' :: r => rest r "ch" .kMatch
    | r => caseR r
  | 'r' :: r => caseR r
  | _ => none

/-- scanner.c:543-544: the type of a word. -/
def wordTy (w : List Char) : Ty :=
  match keyword w with
  | some k => .kw k
  | none => .ident

/-! ### Operators -/

/-- scanner.c:154-263 `scanner_special_char`; 224-235: `>>` alone is not a token here. -/
def special : List Char → Option (Sym × List Char)
  | '(' :: r => some (.leftParen, r)
  | ')' :: r => some (.rightParen, r)
  | '[' :: r => some (.leftSquare, r)
  | ']' :: r => some (.rightSquare, r)
  | '{' :: r => some (.leftCurly, r)
  | '}' :: r => some (.rightCurly, r)
  | ':' :: r => some (.colon, r)
  | ';' :: r => some (.semicolon, r)
  | ',' :: r => some (.comma, r)
  | '?' :: r => some (.question, r)
  | '%' :: r => match r with | '=' :: r => some (.percentEqual, r) | r => some (.percent, r)
  | '-' :: r => match r with | '=' :: r => some (.minusEqual, r) | '>' :: r => some (.arrow, r) | r => some (.minus, r)
  | '+' :: r => match r with | '=' :: r => some (.plusEqual, r) | r => some (.plus, r)
  | '/' :: r => match r with | '=' :: r => some (.slashEqual, r) | r => some (.slash, r)
  | '*' :: r => match r with | '=' :: r => some (.starEqual, r) | r => some (.star, r)
  | '.' :: r => match r with | '.' :: '.' :: r => some (.ellipsis, r) | '.' :: r => some (.range, r) | r => some (.dot, r)
  | '!' :: r => match r with | '=' :: r => some (.notEqual, r) | r => some (.not, r)
  | '=' :: r => match r with | '=' :: r => some (.equalEqual, r) | r => some (.equal, r)
  | '<' :: r =>
    match r with
    | '<' :: '=' :: r => some (.leftShiftEqual, r)
    | '<' :: r => some (.leftShift, r)
    | '=' :: r => some (.lessEqual, r)
    | r => some (.leftAngle, r)
  | '>' :: r =>
    match r with
    | '=' :: r => some (.greaterEqual, r)
    | '>' :: '=' :: r => some (.rightShiftEqual, r)
    | r => some (.rightAngle, r)
  | '&' :: r => match r with | '=' :: r => some (.andEqual, r) | '&' :: r => some (.andAnd, r) | r => some (.and, r)
  | '|' :: r => match r with | '=' :: r => some (.orEqual, r) | '|' :: r => some (.orOr, r) | r => some (.or, r)
  | '~' :: r => some (.tilde, r)
  | '^' :: r => match r with | '=' :: r => some (.xorEqual, r) | r => some (.xor, r)
  | _ => none

/-! ### Strings -/

/-- scanner.c:336-353: one hexadecimal digit. -/
def hexValue (c : Char) : Nat :=
  if '0' ≤ c && c ≤ '9' then c.toNat - '0'.toNat
  else if 'a' ≤ c && c ≤ 'f' then c.toNat - 'a'.toNat + 10
  else if 'A' ≤ c && c ≤ 'F' then c.toNat - 'A'.toNat + 10
  else 0

/-- scanner.c:301-325, 359-363: the escapes of one character. -/
def escape : Char → Option Char
  | 'n' => some '\n'
  | 't' => some '\t'
  | 'r' => some '\r'
  | 'b' => some (Char.ofNat 8)
  | 'f' => some (Char.ofNat 12)
  | 'a' => some (Char.ofNat 7)
  | 'v' => some (Char.ofNat 11)
  | '0' => some (Char.ofNat 0)
  | '\\' => some '\\'
  | '\'' => some '\''
  | '"' => some '"'
  | _ => none

/-- scanner.c:287-375: the loop.  At the end of the source the loop ends as well, and the cursor is moved past the terminator
(378); the next thing that is done is to read there. -/
def stringLoop (close : Char) : List Char → List Char → Out (List Char × List Char)
  | [], _ => .past
  | c :: r, buf =>
    if c = close then .ok (buf, r)
    else if close ≠ '`' ∧ c = '\n' then .err
    else if close ≠ '`' ∧ c = '\\' then
      match r with
      | 'x' :: a :: b :: r => if isHex a && isHex b then stringLoop close r (buf ++ [Char.ofNat (hexValue a * 16 + hexValue b)]) else .err
      | e :: r => match escape e with | some v => stringLoop close r (buf ++ [v]) | none => .err
      | [] => .err
    else stringLoop close r (buf ++ [c])

/-! ### Numbers -/

/-- utils/helper.h:368-374 `utoa`: decimal digits; 20 are enough for 64 bits. -/
def decLoop : Nat → Nat → List Char
  | 0, _ => []
  | f + 1, n => if n < 10 then [Char.ofNat ('0'.toNat + n)] else decLoop f (n / 10) ++ [Char.ofNat ('0'.toNat + n % 10)]

def dec (n : Nat) : List Char := decLoop 20 n

/-- scanner.c:449-459 `scanner_number_convert`: `strtoull` of a word that has digits of that base only (which may be empty: then
it is 0); `ERANGE` is reported. -/
def convert (word : List Char) (base : Nat) : Out (List Char) :=
  let n := word.foldl (fun n c => n * base + hexValue c) 0
  if n < 2 ^ 64 then .ok (dec n) else .err

/-- scanner.c:461-496: the digits after the prefix. -/
def based (p : Char → Bool) (base : Nat) (r : List Char) : Out (List Char × List Char) :=
  (convert (r.takeWhile p) base).bind fun w => .ok (w, r.dropWhile p)

/-- scanner.c:504-511: the fraction. -/
def fraction : List Char → List Char × List Char
  | '.' :: c :: r => if isDigit c then ('.' :: (c :: r).takeWhile isDigit, (c :: r).dropWhile isDigit) else ([], '.' :: c :: r)
  | r => ([], r)

/-- scanner.c:514-528: the exponent. -/
def exponent : List Char → List Char × List Char
  | e :: c :: r =>
    if (e = 'e' ∨ e = 'E') ∧ isDigit c then (e :: (c :: r).takeWhile isDigit, (c :: r).dropWhile isDigit)
    else if (e = 'e' ∨ e = 'E') ∧ (c = '+' ∨ c = '-') ∧ (r.head?.any isDigit) then
      (e :: c :: r.takeWhile isDigit, r.dropWhile isDigit)
    else ([], e :: c :: r)
  | r => ([], r)

/-- scanner.c:498-532 `scanner_number_advance`. -/
def decimal (r : List Char) : List Char × List Char :=
  let w := r.takeWhile isDigit
  let f := fraction (r.dropWhile isDigit)
  let e := exponent f.2
  (w ++ f.1 ++ e.1, e.2)

/-- scanner.c:44-90 `scanner_is_float`: the reports in it (a point at the end, several points) cannot happen. -/
def isFloat (w : List Char) : Bool := w.any fun c => c == '.' || c == 'e' || c == 'E'

/-- scanner.c:562-578: a number. -/
def number : List Char → Out (List Char × List Char)
  | '0' :: 'x' :: r => based isHex 16 r
  | '0' :: 'o' :: r => based isOct 8 r
  | '0' :: 'b' :: r => based isBin 2 r
  | r => .ok (decimal r)

/-! ### Tokens -/

/-- scanner.c:33-35. -/
def isQuote (c : Char) : Bool := c == '"' || c == '`' || c == '\''

/-- scanner.c:535-608 `scanner_item`; `prev` is the type of the token before. -/
def item (prev : Option Ty) : List Char → Out (Tok × List Char)
  | [] => .err
  | c :: r =>
    if isAlpha c then
      let w := (c :: r).takeWhile isWord
      .ok (⟨wordTy w, w⟩, (c :: r).dropWhile isWord)
    else if c = '@' then .ok (⟨.macroIdent, r.takeWhile isWord⟩, r.dropWhile isWord)
    else if c = '#' then .ok (⟨.label, r.takeWhile isWord⟩, r.dropWhile isWord)
    else if isDigit c then
      (number (c :: r)).bind fun q => .ok (⟨if isFloat q.1 then .float else .int, q.1⟩, q.2)
    else if isQuote c then
      (stringLoop c r []).bind fun q => .ok (⟨.str, q.1⟩, q.2)
    else
      match special (c :: r) with
      | none => .err
      | some (s, r') =>
        let text := (c :: r).take ((c :: r).length - r'.length)
        if s = .star ∧ prev = some (.kw .kAs) then .ok (⟨.importStar, text⟩, r') else .ok (⟨.sym s, text⟩, r')

/-- Where `scanner_skip_space` is. -/
inductive Mode
  | plain
  | line
  | block
deriving DecidableEq

/-- scanner.c:650-708 `scanner_skip_space`: whether there was a line break, and what follows. -/
def skip : Mode → Bool → List Char → Out (Bool × List Char)
  | .plain, n, [] => .ok (n, [])
  | .plain, n, c :: r =>
    if c = ' ' ∨ c = '\r' ∨ c = '\t' then skip .plain n r
    else if c = '\n' then skip .plain true r
    else if c = '/' then
      match r with
      | '/' :: r => skip .line n r
      | '*' :: r => skip .block n ('*' :: r)
      | r => .ok (n, '/' :: r)
    else .ok (n, c :: r)
  | .line, n, [] => .ok (n, [])
  | .line, n, c :: r => if c = '\n' then skip .plain true r else skip .line n r
  | .block, _, [] => .err
  | .block, n, c :: r =>
    if c = '*' then
      match r with
      | '/' :: r => skip .plain n r
      | r => skip .block n r
    else skip .block n r

/-- scanner.c:401-447 `scanner_need_stmt_end`. -/
def endsStmt : Ty → Bool
  | .importStar => true
  | .int => true
  | .str => true
  | .float => true
  | .ident => true
  | .label => true
  | .kw k =>
    match k with
    | .kBreak | .kContinue | .kReturn | .kTrue | .kFalse | .kBool | .kFloat | .kF32 | .kF64 | .kInt | .kI8 | .kI16 | .kI32 | .kI64
    | .kUint | .kU8 | .kU16 | .kU32 | .kU64 | .kString | .kVoid | .kNull => true
    | _ => false
  | .sym s =>
    match s with
    | .rightParen | .rightSquare | .rightCurly | .rightAngle | .not | .question => true
    | _ => false
  | _ => false

def needEnd (prev next : Ty) : Bool := next != .sym .dot && endsStmt prev

/-- scanner.c:614-648 `scanner`: the loop; the tokens are kept with the last one first. -/
def loop : Nat → List Tok → List Char → Out (List Tok)
  | _, ts, [] => .ok (⟨.eof, "EOF".toList⟩ :: ts)
  | 0, _, _ :: _ => .endless
  | n + 1, ts, c :: r =>
    (skip .plain false (c :: r)).bind fun q =>
    if q.2 = [] then .ok (⟨.eof, "EOF".toList⟩ :: ts)
    else
      (item (ts.head?.map (·.ty)) q.2).bind fun t =>
        loop n (t.1 :: (if q.1 && ts.head?.any fun p => needEnd p.ty t.1.ty then ⟨.sym .semicolon, [';']⟩ :: ts else ts)) t.2

/-- The source is scanned; every token has at least one character, so that as many rounds as there are characters are enough. -/
def scan (src : List Char) : Out (List Tok) :=
  (loop src.length [] src).bind fun ts => .ok ts.reverse

end Nature.Scan
