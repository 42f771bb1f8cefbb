import Verif.Json.Model
/-
The JSON grammar (RFC 8259) with the value each text stands for.  Nothing here refers to the parser; `V` and `insert`
(an entry put into a map) come from the model.
-/
namespace Nature.Json

/-- Whitespace. -/
def Ws (l : List Byte) : Prop := ∀ c ∈ l, c = 32 ∨ c = 9 ∨ c = 10 ∨ c = 13

/-! ### Unicode -/

/-- A Unicode scalar value. -/
def Scalar (cp : Nat) : Prop := cp ≤ 0x10FFFF ∧ ¬ (0xD800 ≤ cp ∧ cp ≤ 0xDFFF)

/-- The UTF-8 form of a scalar value. -/
def utf8 (cp : Nat) : List Byte :=
  if cp < 0x80 then [UInt8.ofNat cp]
  else if cp < 0x800 then [UInt8.ofNat (0xC0 + cp / 64), UInt8.ofNat (0x80 + cp % 64)]
  else if cp < 0x10000 then
    [UInt8.ofNat (0xE0 + cp / 4096), UInt8.ofNat (0x80 + cp / 64 % 64), UInt8.ofNat (0x80 + cp % 64)]
  else
    [UInt8.ofNat (0xF0 + cp / 262144), UInt8.ofNat (0x80 + cp / 4096 % 64), UInt8.ofNat (0x80 + cp / 64 % 64),
      UInt8.ofNat (0x80 + cp % 64)]

/-- Valid UTF-8: a sequence of encoded scalar values. -/
def ValidUtf8 (l : List Byte) : Prop := ∃ cps : List Nat, (∀ cp ∈ cps, Scalar cp) ∧ l = cps.flatMap utf8

/-! ### Strings -/

/-- The value of a hexadecimal digit. -/
def HexVal (c : Byte) (n : Nat) : Prop :=
  (48 ≤ c ∧ c ≤ 57 ∧ n = c.toNat - 48) ∨ (97 ≤ c ∧ c ≤ 102 ∧ n = c.toNat - 87) ∨ (65 ≤ c ∧ c ≤ 70 ∧ n = c.toNat - 55)

/-- Four hexadecimal digits and their value. -/
def Hex4 (l : List Byte) (n : Nat) : Prop := ∃ a b c d na nb nc nd, l = [a, b, c, d] ∧ HexVal a na ∧ HexVal b nb ∧
  HexVal c nc ∧ HexVal d nd ∧ n = na * 4096 + nb * 256 + nc * 16 + nd

/-- `l` starts with `\u` and a low surrogate. -/
def StartsLow (l : List Byte) : Prop := ∃ h n t, Hex4 h n ∧ 0xDC00 ≤ n ∧ n ≤ 0xDFFF ∧ l = 92 :: 117 :: (h ++ t)

/-- The inside of a string: how it is written, and the bytes it stands for.  The last two of the rules that make progress
are what the RFC leaves open: unpaired surrogates and bytes that are not UTF-8 stand for U+FFFD. -/
inductive Chars : List Byte → List Byte → Prop
  | nil : Chars [] []
  | plain {l o} (c : Byte) : 0x20 ≤ c → c < 0x80 → c ≠ 34 → c ≠ 92 → Chars l o → Chars (c :: l) (c :: o)
  | escape {l o} (e c : Byte) : (e, c) ∈ ([(34, 34), (92, 92), (47, 47), (98, 8), (102, 12), (110, 10), (114, 13), (116, 9)] :
      List (Byte × Byte)) → Chars l o → Chars (92 :: e :: l) (c :: o)
  | unicode {l o} (h : List Byte) (n : Nat) : Hex4 h n → ¬ (0xD800 ≤ n ∧ n ≤ 0xDFFF) → Chars l o →
      Chars (92 :: 117 :: (h ++ l)) (utf8 n ++ o)
  | pair {l o} (h1 h2 : List Byte) (hi lo : Nat) : Hex4 h1 hi → 0xD800 ≤ hi → hi ≤ 0xDBFF → Hex4 h2 lo → 0xDC00 ≤ lo →
      lo ≤ 0xDFFF → Chars l o →
      Chars (92 :: 117 :: (h1 ++ 92 :: 117 :: (h2 ++ l))) (utf8 (0x10000 + (hi - 0xD800) * 0x400 + (lo - 0xDC00)) ++ o)
  | rune {l o} (cp : Nat) : Scalar cp → 0x80 ≤ cp → Chars l o → Chars (utf8 cp ++ l) (utf8 cp ++ o)
  | lone {l o} (h : List Byte) (n : Nat) : Hex4 h n → 0xD800 ≤ n → n ≤ 0xDFFF → ¬ (n ≤ 0xDBFF ∧ StartsLow l) → Chars l o →
      Chars (92 :: 117 :: (h ++ l)) (utf8 0xFFFD ++ o)
  | bad {l o} (c : Byte) : 0x80 ≤ c → (∀ cp t, Scalar cp → c :: l ≠ utf8 cp ++ t) → Chars l o →
      Chars (c :: l) (utf8 0xFFFD ++ o)

/-! ### Numbers -/

def Digits (l : List Byte) : Prop := ∀ c ∈ l, 48 ≤ c ∧ c ≤ 57

/-- `number = [ minus ] int [ frac ] [ exp ]` -/
def Num (l : List Byte) : Prop := ∃ sign int frac exp, l = sign ++ int ++ frac ++ exp ∧
  (sign = [] ∨ sign = [45]) ∧
  (int = [48] ∨ ∃ c t, int = c :: t ∧ 49 ≤ c ∧ c ≤ 57 ∧ Digits t) ∧
  (frac = [] ∨ ∃ ds, frac = 46 :: ds ∧ ds ≠ [] ∧ Digits ds) ∧
  (exp = [] ∨ ∃ e sg ds, exp = e :: (sg ++ ds) ∧ (e = 101 ∨ e = 69) ∧ (sg = [] ∨ sg = [43] ∨ sg = [45]) ∧ ds ≠ [] ∧ Digits ds)

/-! ### Values -/

/-- Literal names, numbers and strings. -/
inductive Leaf : List Byte → V → Prop
  | null : Leaf [110, 117, 108, 108] .null
  | true : Leaf [116, 114, 117, 101] (.bool true)
  | false : Leaf [102, 97, 108, 115, 101] (.bool false)
  | num {l} : Num l → Leaf l (.num l)
  | str {l s} : Chars l s → Leaf (34 :: (l ++ [34])) (.str s)

/-- `value *( , value )` with whitespace around values. -/
inductive Elems (P : List Byte → V → Prop) : List Byte → List V → Prop
  | one {a t b v} : Ws a → P t v → Ws b → Elems P (a ++ t ++ b) [v]
  | cons {a t b v l vs} : Ws a → P t v → Ws b → Elems P l vs → Elems P (a ++ t ++ b ++ 44 :: l) (v :: vs)

/-- `string : value`, with whitespace around both. -/
def Member (P : List Byte → V → Prop) (l k : List Byte) (v : V) : Prop := ∃ a kt b c t d, Ws a ∧ Chars kt k ∧ Ws b ∧ Ws c ∧
  P t v ∧ Ws d ∧ l = a ++ 34 :: (kt ++ 34 :: (b ++ 58 :: (c ++ t ++ d)))

/-- `member *( , member )` -/
inductive Members (P : List Byte → V → Prop) : List Byte → List (List Byte × V) → Prop
  | one {l k v} : Member P l k v → Members P l [(k, v)]
  | cons {l k v r m} : Member P l k v → Members P r m → Members P (l ++ 44 :: r) ((k, v) :: m)

/-- The map with the entries of a list: of equal keys the last one counts. -/
def mapOf (m : List (List Byte × V)) : List (List Byte × V) := m.foldl (fun acc e => insert e.1 e.2 acc) []

/-- `t` is the text of `v`, with at most `d` levels of arrays and objects. -/
def Val : Nat → List Byte → V → Prop
  | 0, t, v => Leaf t v
  | d + 1, t, v => Leaf t v ∨
    (∃ w, Ws w ∧ t = 91 :: (w ++ [93]) ∧ v = .arr []) ∨
    (∃ l vs, Elems (Val d) l vs ∧ t = 91 :: (l ++ [93]) ∧ v = .arr vs) ∨
    (∃ w, Ws w ∧ t = 123 :: (w ++ [125]) ∧ v = .obj []) ∨
    (∃ l m, Members (Val d) l m ∧ t = 123 :: (l ++ [125]) ∧ v = .obj (mapOf m))

/-- A JSON text: a value with whitespace around it. -/
def Text (d : Nat) (s : List Byte) (v : V) : Prop := ∃ a t b, Ws a ∧ Val d t v ∧ Ws b ∧ s = a ++ t ++ b

/-! ### Values that can be written -/

/-- What a byte string is turned into when it is not UTF-8: each byte that no encoded scalar value starts with gives
U+FFFD. -/
inductive Clean : List Byte → List Byte → Prop
  | nil : Clean [] []
  | rune {l o} (cp : Nat) : Scalar cp → Clean l o → Clean (utf8 cp ++ l) (utf8 cp ++ o)
  | bad {l o} (c : Byte) : (∀ cp t, Scalar cp → c :: l ≠ utf8 cp ++ t) → Clean l o → Clean (c :: l) (utf8 0xFFFD ++ o)

/-- A value JSON can carry, with at most `d` levels: strings and keys are UTF-8, number tokens are numbers, the keys of an
object are different. -/
def Wf : Nat → V → Prop
  | _, .null => True
  | _, .bool _ => True
  | _, .num tok => Num tok
  | _, .str s => ValidUtf8 s
  | 0, .arr _ => False
  | 0, .obj _ => False
  | d + 1, .arr l => ∀ v ∈ l, Wf d v
  | d + 1, .obj m => (m.map Prod.fst).Nodup ∧ ∀ e ∈ m, ValidUtf8 e.1 ∧ Wf d e.2

end Nature.Json
