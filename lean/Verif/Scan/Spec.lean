/-
What the tokens of the language are and how they are written.
-/
import Verif.Scan.Model
namespace Nature.Scan

/-- The keywords. -/
def keywords : List (String × Kw) :=
  [("any", .kAny), ("as", .kAs), ("bool", .kBool), ("break", .kBreak), ("catch", .kCatch), ("chan", .kChan), ("const", .kConst),
   ("continue", .kContinue), ("defer", .kDefer), ("else", .kElse), ("enum", .kEnum), ("f32", .kF32), ("f64", .kF64),
   ("false", .kFalse), ("float", .kFloat), ("fn", .kFn), ("for", .kFor), ("go", .kGo), ("i16", .kI16), ("i32", .kI32),
   ("i64", .kI64), ("i8", .kI8), ("if", .kIf), ("import", .kImport), ("in", .kIn), ("int", .kInt), ("interface", .kInterface),
   ("is", .kIs), ("let", .kLet), ("match", .kMatch), ("null", .kNull), ("pub", .kPub), ("return", .kReturn),
   ("select", .kSelect), ("string", .kString), ("struct", .kStruct), ("test", .kTest), ("throw", .kThrow), ("true", .kTrue),
   ("try", .kTry), ("type", .kType), ("u16", .kU16), ("u32", .kU32), ("u64", .kU64), ("u8", .kU8), ("uint", .kUint),
   ("union", .kUnion), ("var", .kVar), ("void", .kVoid)]

/-- What a word is. -/
def wordType (w : List Char) : Ty :=
  match keywords.find? (fun p => p.1.toList == w) with
  | some p => .kw p.2
  | none => .ident

/-- How operators and punctuation are written. -/
def Sym.text : Sym → String
  | .leftParen => "(" | .rightParen => ")" | .leftSquare => "[" | .rightSquare => "]" | .leftCurly => "{" | .rightCurly => "}"
  | .leftAngle => "<" | .rightAngle => ">" | .comma => "," | .dot => "." | .minus => "-" | .plus => "+" | .ellipsis => "..."
  | .range => ".." | .colon => ":" | .semicolon => ";" | .slash => "/" | .star => "*" | .percent => "%" | .question => "?"
  | .arrow => "->" | .not => "!" | .notEqual => "!=" | .equal => "=" | .equalEqual => "==" | .greaterEqual => ">="
  | .lessEqual => "<=" | .andAnd => "&&" | .orOr => "||" | .plusEqual => "+=" | .minusEqual => "-=" | .starEqual => "*="
  | .slashEqual => "/=" | .percentEqual => "%=" | .andEqual => "&=" | .orEqual => "|=" | .xorEqual => "^="
  | .leftShiftEqual => "<<=" | .rightShiftEqual => ">>=" | .tilde => "~" | .and => "&" | .or => "|" | .xor => "^"
  | .leftShift => "<<"

/-- Characters of a word, of a number. -/
def WordChar (c : Char) : Prop := (('a' ≤ c ∧ c ≤ 'z') ∨ ('A' ≤ c ∧ c ≤ 'Z') ∨ c = '_') ∨ ('0' ≤ c ∧ c ≤ '9')
def DigitChar (c : Char) : Prop := '0' ≤ c ∧ c ≤ '9'

/-- Something written inside quotes. -/
inductive Elem
  /-- A character standing for itself. -/
  | char (c : Char)
  /-- A backslash and a letter. -/
  | short (c : Char)
  /-- `\x` and two hexadecimal digits. -/
  | hex (a b : Char)
deriving DecidableEq

def Elem.text : Elem → List Char
  | .char c => [c]
  | .short c => ['\\', c]
  | .hex a b => ['\\', 'x', a, b]

/-- The letters after a backslash and what they mean. -/
def shorts : List (Char × Nat) :=
  [('n', 10), ('t', 9), ('r', 13), ('b', 8), ('f', 12), ('a', 7), ('v', 11), ('0', 0), ('\\', 92), ('\'', 39), ('"', 34)]

/-- The hexadecimal digits and their values. -/
def hexes : List (Char × Nat) :=
  [('0', 0), ('1', 1), ('2', 2), ('3', 3), ('4', 4), ('5', 5), ('6', 6), ('7', 7), ('8', 8), ('9', 9), ('a', 10), ('b', 11),
   ('c', 12), ('d', 13), ('e', 14), ('f', 15), ('A', 10), ('B', 11), ('C', 12), ('D', 13), ('E', 14), ('F', 15)]

def hexOf (c : Char) : Option Nat := (hexes.find? (·.1 == c)).map (·.2)

/-- What an element of a string with that quote stands for; nothing if it may not be written there. -/
def Elem.value (q : Char) : Elem → Option Char
  | .char c => if c = q ∨ (q ≠ '`' ∧ (c = '\n' ∨ c = '\\')) then none else some c
  | .short c => if q = '`' then none else ((shorts.find? (·.1 == c)).map fun p => Char.ofNat p.2)
  | .hex a b =>
    if q = '`' then none
    else match hexOf a, hexOf b with
      | some x, some y => some (Char.ofNat (x * 16 + y))
      | _, _ => none

/-- The bases with a prefix. -/
inductive Base
  | hex
  | oct
  | bin
deriving DecidableEq

def Base.letter : Base → Char
  | .hex => 'x'
  | .oct => 'o'
  | .bin => 'b'

def Base.size : Base → Nat
  | .hex => 16
  | .oct => 8
  | .bin => 2

/-- A digit of the base. -/
def Base.Digit (b : Base) (c : Char) : Prop := ∃ v, hexOf c = some v ∧ v < b.size

/-- The number that digits of a base stand for. -/
def valueOf (size : Nat) (ds : List Char) : Nat := ds.foldl (fun n c => n * size + (hexOf c).getD 0) 0

/-- Tokens as they are written. -/
inductive Lexeme
  | word (w : List Char)
  | macroName (w : List Char)
  | label (w : List Char)
  /-- A whole number in decimal. -/
  | whole (ds : List Char)
  /-- A number with a fraction or an exponent, with its letter and its sign, or both. -/
  | real (ds : List Char) (frac : Option (List Char)) (exp : Option (Char × Option Char × List Char))
  | based (b : Base) (ds : List Char)
  | str (q : Char) (es : List Elem)
  | sym (s : Sym)

def fracText : Option (List Char) → List Char
  | none => []
  | some f => '.' :: f

def expText : Option (Char × Option Char × List Char) → List Char
  | none => []
  | some (e, s, d) => e :: (s.toList ++ d)

def Lexeme.text : Lexeme → List Char
  | .word w => w
  | .macroName w => '@' :: w
  | .label w => '#' :: w
  | .whole ds => ds
  | .real ds f e => ds ++ fracText f ++ expText e
  | .based b ds => '0' :: b.letter :: ds
  | .str q es => q :: (es.flatMap Elem.text ++ [q])
  | .sym s => s.text.toList

/-- They are written correctly. -/
def Lexeme.Ok : Lexeme → Prop
  | .word w => (∃ c r, w = c :: r ∧ WordChar c ∧ ¬ DigitChar c) ∧ ∀ c ∈ w, WordChar c
  | .macroName w => ∀ c ∈ w, WordChar c
  | .label w => ∀ c ∈ w, WordChar c
  | .whole ds => ds ≠ [] ∧ ∀ c ∈ ds, DigitChar c
  | .real ds f e => ds ≠ [] ∧ (∀ c ∈ ds, DigitChar c) ∧ (f ≠ none ∨ e ≠ none) ∧
      (∀ x, f = some x → x ≠ [] ∧ ∀ c ∈ x, DigitChar c) ∧
      ∀ c s x, e = some (c, s, x) → (c = 'e' ∨ c = 'E') ∧ (∀ y, s = some y → y = '+' ∨ y = '-') ∧ x ≠ [] ∧ ∀ c ∈ x, DigitChar c
  | .based b ds => (∀ c ∈ ds, b.Digit c) ∧ valueOf b.size ds < 2 ^ 64
  | .str q es => (q = '"' ∨ q = '\'' ∨ q = '`') ∧ ∀ e ∈ es, e.value q ≠ none
  | .sym _ => True

/-- The next characters do not belong to it. -/
def Lexeme.EndsBefore (l : Lexeme) (r : List Char) : Prop :=
  match l with
  | .word _ | .macroName _ | .label _ => ∀ c s, r = c :: s → ¬ WordChar c
  | .whole ds =>
      (∀ c s, r = c :: s → ¬ DigitChar c ∧ (ds = ['0'] → c ≠ 'x' ∧ c ≠ 'o' ∧ c ≠ 'b')) ∧
      (∀ c s, r = '.' :: c :: s → ¬ DigitChar c) ∧
      (∀ e c s, r = e :: c :: s → e = 'e' ∨ e = 'E' → ¬ DigitChar c) ∧
      ∀ e p c s, r = e :: p :: c :: s → e = 'e' ∨ e = 'E' → p = '+' ∨ p = '-' → ¬ DigitChar c
  | .real _ _ e =>
      (∀ c s, r = c :: s → ¬ DigitChar c) ∧
      (e = none → (∀ e c s, r = e :: c :: s → e = 'e' ∨ e = 'E' → ¬ DigitChar c) ∧
        ∀ e p c s, r = e :: p :: c :: s → e = 'e' ∨ e = 'E' → p = '+' ∨ p = '-' → ¬ DigitChar c)
  | .based b _ => ∀ c s, r = c :: s → ¬ b.Digit c
  | .str _ _ => True
  | .sym x =>
      (∀ y : Sym, y.text.toList <+: x.text.toList ++ r → y.text.toList.length ≤ x.text.toList.length) ∧
      (x = .slash → ∀ c s, r = c :: s → c ≠ '/' ∧ c ≠ '*')

/-- The digits of a number, without leading zeros. -/
def IsDecimal (n : Nat) (w : List Char) : Prop :=
  (∀ c ∈ w, DigitChar c) ∧ valueOf 10 w = n ∧ (w = ['0'] ∨ ∃ c r, w = c :: r ∧ c ≠ '0')

/-- The token that is written; `*` after `as` is a special one. -/
def Lexeme.IsTok (prev : Option Ty) (l : Lexeme) (t : Tok) : Prop :=
  match l with
  | .word w => t = ⟨wordType w, w⟩
  | .macroName w => t = ⟨.macroIdent, w⟩
  | .label w => t = ⟨.label, w⟩
  | .whole ds => t = ⟨.int, ds⟩
  | .real ds f e => t = ⟨.float, ds ++ fracText f ++ expText e⟩
  | .based b ds => t.ty = .int ∧ IsDecimal (valueOf b.size ds) t.text
  | .str q es => t.ty = .str ∧ es.map (Elem.value q) = t.text.map some
  | .sym s => t = ⟨if s = .star ∧ prev = some (.kw .kAs) then .importStar else .sym s, s.text.toList⟩

/-- What may stand between tokens. -/
inductive Gap
  | blank (c : Char)
  | newline
  /-- A comment up to the end of the line. -/
  | line (t : List Char)
  | block (t : List Char)

def Gap.text : Gap → List Char
  | .blank c => [c]
  | .newline => ['\n']
  | .line t => '/' :: '/' :: (t ++ ['\n'])
  | .block t => '/' :: '*' :: (t ++ ['*', '/'])

def Gap.Ok : Gap → Prop
  | .blank c => c = ' ' ∨ c = '\t' ∨ c = '\r'
  | .newline => True
  | .line t => '\n' ∉ t
  | .block t => ∀ u v, '*' :: t ≠ u ++ '*' :: '/' :: v

/-- The line ends in it. -/
def Gap.breaks : Gap → Bool
  | .newline => true
  | .line _ => true
  | _ => false

def gapText (g : List Gap) : List Char := g.flatMap Gap.text

/-- A statement can end with this token. -/
def CanEnd (t : Ty) : Prop :=
  t ∈ [.ident, .label, .int, .float, .str, .importStar, .kw .kTrue, .kw .kFalse, .kw .kNull, .kw .kBreak, .kw .kContinue, .kw .kReturn,
    .sym .rightParen, .sym .rightSquare, .sym .rightCurly, .sym .rightAngle, .sym .not, .sym .question,
    .kw .kBool, .kw .kString, .kw .kVoid, .kw .kFloat, .kw .kF32, .kw .kF64, .kw .kInt, .kw .kI8, .kw .kI16, .kw .kI32, .kw .kI64,
    .kw .kUint, .kw .kU8, .kw .kU16, .kw .kU32, .kw .kU64]

/-- A source: tokens, each with what stands before it; what stands at the end; and perhaps a comment without a line break. -/
structure Source where
  parts : List (List Gap × Lexeme)
  tail : List Gap
  comment : Option (List Char)

def tailText (s : Source) : List Char :=
  gapText s.tail ++ (match s.comment with | none => [] | some t => '/' :: '/' :: t)

def partsText : List (List Gap × Lexeme) → List Char
  | [] => []
  | (g, l) :: r => gapText g ++ (l.text ++ partsText r)

def Source.text (s : Source) : List Char := partsText s.parts ++ tailText s

/-- Tokens are written correctly and end where the next thing starts. -/
def partsOk : List (List Gap × Lexeme) → List Char → Prop
  | [], _ => True
  | (g, l) :: r, e => (∀ x ∈ g, x.Ok) ∧ l.Ok ∧ l.EndsBefore (partsText r ++ e) ∧ partsOk r e

structure Source.Ok (s : Source) : Prop where
  parts : partsOk s.parts (tailText s)
  tail : ∀ x ∈ s.tail, x.Ok
  comment : ∀ t, s.comment = some t → '\n' ∉ t

/-- The tokens: those that are written, with a semicolon where a line ends, if the token before can end a statement and the one
after is not a point. -/
inductive Tokens : Option Ty → List (List Gap × Lexeme) → List Tok → Prop
  | nil {p : Option Ty} : Tokens p [] []
  | plain {p : Option Ty} {g : List Gap} {l : Lexeme} {r : List (List Gap × Lexeme)} {t : Tok} {ts : List Tok} : l.IsTok p t →
      ¬ ((∃ x ∈ g, x.breaks = true) ∧ (∃ y, p = some y ∧ CanEnd y) ∧ t.ty ≠ .sym .dot) → Tokens (some t.ty) r ts →
      Tokens p ((g, l) :: r) (t :: ts)
  | ended {y : Ty} {g : List Gap} {l : Lexeme} {r : List (List Gap × Lexeme)} {t : Tok} {ts : List Tok} : l.IsTok (some y) t →
      (∃ x ∈ g, x.breaks = true) → CanEnd y → t.ty ≠ .sym .dot → Tokens (some t.ty) r ts →
      Tokens (some y) ((g, l) :: r) (⟨.sym .semicolon, [';']⟩ :: t :: ts)

/-- The words that are taken for keywords although they are not: the cases 'e', 'v' and 'm' of the switch go on with the next. -/
def misread : List (String × Kw) :=
  [("ealse", .kFalse), ("e32", .kF32), ("e64", .kF64), ("eor", .kFor), ("vint", .kUint), ("v8", .kU8), ("v16", .kU16),
   ("v32", .kU32), ("v64", .kU64), ("vnion", .kUnion), ("meturn", .kReturn)]

end Nature.Scan
