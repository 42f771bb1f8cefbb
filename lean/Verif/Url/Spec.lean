import Verif.Url.Model
import Verif.Strings.Spec
/-! What the functions of the url module are for. -/
namespace Nature.Url
open Nature Nature.Strings

/-- The characters an encoded text may contain: letters, digits, `- _ . ~`, `+`
and `%` (RFC 3986 unreserved characters plus the two escapes). -/
def Allowed (c : Byte) : Prop :=
  (65 ≤ c.toNat ∧ c.toNat ≤ 90) ∨ (97 ≤ c.toNat ∧ c.toNat ≤ 122) ∨ (48 ≤ c.toNat ∧ c.toNat ≤ 57) ∨
  c = 45#8 ∨ c = 95#8 ∨ c = 46#8 ∨ c = 126#8 ∨ c = 43#8 ∨ c = 37#8

def HexDigit (c : Byte) : Prop :=
  (48 ≤ c.toNat ∧ c.toNat ≤ 57) ∨ (65 ≤ c.toNat ∧ c.toNat ≤ 70)

/-- Every `%` is followed by two hex digits. -/
inductive WellEscaped : Str → Prop
  | nil : WellEscaped []
  | char (c : Byte) (t : Str) : c ≠ 37#8 → WellEscaped t → WellEscaped (c :: t)
  | esc (a b : Byte) (t : Str) : HexDigit a → HexDigit b → WellEscaped t → WellEscaped (37#8 :: a :: b :: t)

/-- `url` is `scheme://authority` + `path` + optional `?query` + optional
`#fragment`, each component free of the characters that end it. -/
structure Shape (url scheme authority path : Str) (query fragment : Option Str) : Prop where
  eq : url = scheme ++ [58#8, 47#8, 47#8] ++ authority ++ path ++
    (match query with | some q => 63#8 :: q | none => []) ++
    (match fragment with | some f => 35#8 :: f | none => [])
  scheme_free : 58#8 ∉ scheme
  authority_free : ∀ c ∈ authority, c ≠ 47#8 ∧ c ≠ 63#8 ∧ c ≠ 35#8
  path_free : ∀ c ∈ path, c ≠ 63#8 ∧ c ≠ 35#8
  path_head : path = [] ∨ ∃ p, path = 47#8 :: p
  query_free : ∀ q, query = some q → 35#8 ∉ q

/-- Host and port of an authority: the text after the last colon, if there is one,
is the port; it is 0 when that text is not a number or is beyond 32 bits. -/
def HostPort (authority host : Str) (port : Int) : Prop :=
  (58#8 ∉ authority ∧ host = authority ∧ port = 0) ∨
  ∃ p, authority = host ++ 58#8 :: p ∧ 58#8 ∉ p ∧
    (Denotes p port ∨ (port = 0 ∧ ∀ v, Denotes p v → v < -2147483648 ∨ 2147483647 < v))

/-- A query string made of `key=value` pairs, each side percent-encoded. -/
def buildQuery (kvs : List (Str × Str)) : Str :=
  glue [38#8] (kvs.map fun e => encode e.1 ++ [61#8] ++ encode e.2)

/-- The values given to a key, in order. -/
def valuesOf (kvs : List (Str × Str)) (k : Str) : List Str :=
  (kvs.filter fun e => decide (e.1 = k)).map Prod.snd

end Nature.Url
