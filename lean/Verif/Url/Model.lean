import Verif.Strings.Model
/-!
Model of std/net/url.n.  Strings are lists of bytes as in `Verif.Strings.Model`,
whose `split`, `slice`, `rfind` and `to_int` this file uses.
-/
namespace Nature.Url
open Nature Nature.Strings

/-- url.n:218-227 `hex_to_int`; `none` is the code's -1. -/
def hexToInt (ch : Byte) : Option Nat :=
  if ch ≥ 48#8 ∧ ch ≤ 57#8 then some (ch - 48#8).toNat
  else if ch ≥ 65#8 ∧ ch ≤ 70#8 then some (ch - 65#8 + 10#8).toNat
  else if ch ≥ 97#8 ∧ ch ≤ 102#8 then some (ch - 97#8 + 10#8).toNat
  else none

/-- url.n:260-267 `int_to_hex` (arithmetic in `u8`). -/
def intToHex (val : Nat) : Byte :=
  if val ≤ 9 then 48#8 + BitVec.ofNat 8 val
  else if val ≥ 10 ∧ val ≤ 15 then 65#8 + BitVec.ofNat 8 val - 10#8
  else 48#8

/-- url.n:205-212: what `decode` does with a byte that starts no escape. -/
def plus (ch : Byte) : Byte := if ch = 43#8 then 32#8 else ch

/-- url.n:181-216 `decode`.  The rest of the string is the list's tail, so
`i + 2 < s.len()` says that the tail has two bytes; a `%` without two hex digits
after it is copied. -/
def decode : Str → Str
  | ch :: h1 :: h2 :: r =>
    if ch = 37#8 then
      match hexToInt h1, hexToInt h2 with
      | some v1, some v2 => BitVec.ofNat 8 (v1 * 16 + v2) :: decode r
      | _, _ => ch :: decode (h1 :: h2 :: r)
    else plus ch :: decode (h1 :: h2 :: r)
  | [ch, h1] => [plus ch, plus h1]
  | [ch] => [plus ch]
  | [] => []

/-- url.n:238-242: the bytes `encode` copies. -/
def plain (ch : Byte) : Bool :=
  (decide (ch ≥ 65#8) && decide (ch ≤ 90#8)) || (decide (ch ≥ 97#8) && decide (ch ≤ 122#8)) ||
  (decide (ch ≥ 48#8) && decide (ch ≤ 57#8)) || decide (ch = 45#8) || decide (ch = 95#8) ||
  decide (ch = 46#8) || decide (ch = 126#8)

/-- url.n:237-255: what `encode` appends for one byte. -/
def encodeByte (ch : Byte) : Str :=
  if plain ch then [ch]
  else if ch = 32#8 then [43#8]
  else [37#8, intToHex ((ch >>> 4) &&& 0x0F#8).toNat, intToHex (ch &&& 0x0F#8).toNat]

/-- url.n:230-258 `encode`. -/
def encode (s : Str) : Str := s.flatMap encodeByte

/-! ### Parsing -/

/-- url.n:1-10 `url_t` (the copy of the input is left out). -/
structure U where
  scheme : Str := []
  authority : Str := []
  hostname : Str := []
  port : Int := 0
  path : Str := []
  fragment : Str := []
  rawQuery : Str := []
  deriving DecidableEq, Repr

/-- url.n:14-18, the parser states. -/
inductive PSt where
  | scheme | authority | path | query | fragment
  deriving DecidableEq, Repr

/-- url.n:118-131 `parse_authority`; the `catch` turns a failed `to_int` into 0. -/
def parseAuthority (u : U) (a : Str) : Res U :=
  (rfind a [58#8]).bind fun cp =>
  if cp ≠ -1 then
    (slice a (cp + 1) a.length).bind fun ps =>
    (match toInt ps with
     | .throws => Res.ok 0
     | r => r).bind fun port =>
    (slice a 0 cp).bind fun h =>
    .ok { u with authority := a, port := port, hostname := h }
  else .ok { u with authority := a, hostname := a }

/-- url.n:91-108: the state at the end of the input. -/
def finish (url : Str) (st : PSt) (start : Nat) (u : U) : Res U :=
  match st with
  | .scheme => .throws
  | .authority => (slice url start url.length).bind fun a => parseAuthority u a
  | .path => (slice url start url.length).bind fun p => .ok { u with path := p }
  | .query => (slice url start url.length).bind fun q => .ok { u with rawQuery := q }
  | .fragment => (slice url start url.length).bind fun f => .ok { u with fragment := f }

/-- url.n:31-88: the loop of `parse`, `fuel` bounding the remaining rounds. -/
def loop (url : Str) : Nat → Nat → PSt → Nat → U → Res U
  | 0, _, _, _, _ => .abort
  | f + 1, i, st, start, u =>
    if i < url.length then
      (at' url i).bind fun ch =>
      match st with
      | .scheme =>
        if ch = 58#8 then
          (slice url start i).bind fun s =>
          if i + 2 < url.length then
            (at' url (i + 1)).bind fun c1 =>
            (at' url (i + 2)).bind fun c2 =>
            if c1 = 47#8 ∧ c2 = 47#8 then
              loop url f (i + 3) .authority (i + 3) { u with scheme := s }
            else .throws
          else .throws
        else loop url f (i + 1) .scheme start u
      | .authority =>
        if ch = 47#8 then
          (slice url start i).bind fun a => (parseAuthority u a).bind fun u =>
          loop url f (i + 1) .path i u
        else if ch = 63#8 then
          (slice url start i).bind fun a => (parseAuthority u a).bind fun u =>
          loop url f (i + 1) .query (i + 1) u
        else if ch = 35#8 then
          (slice url start i).bind fun a => (parseAuthority u a).bind fun u =>
          loop url f (i + 1) .fragment (i + 1) u
        else loop url f (i + 1) .authority start u
      | .path =>
        if ch = 63#8 then
          (slice url start i).bind fun p => loop url f (i + 1) .query (i + 1) { u with path := p }
        else if ch = 35#8 then
          (slice url start i).bind fun p => loop url f (i + 1) .fragment (i + 1) { u with path := p }
        else loop url f (i + 1) .path start u
      | .query =>
        if ch = 35#8 then
          (slice url start i).bind fun q => loop url f (i + 1) .fragment (i + 1) { u with rawQuery := q }
        else loop url f (i + 1) .query start u
      | .fragment => loop url f (i + 1) .fragment start u
    else finish url st start u

/-- url.n:21-116 `parse`. -/
def parse (url : Str) : Res U :=
  if url.length = 0 then .throws
  else
    (loop url (url.length + 1) 0 .scheme 0 {}).bind fun u =>
    .ok (if u.path.length = 0 then { u with path := [47#8] } else u)

/-! ### Query -/

/-- A query: each key with its values, in the order they were pushed
(url.n:12, `{string:[string]}`; the iteration order of the map is not modelled). -/
abbrev Query := List (Str × List Str)

/-- url.n:162-166: push the value on the key's list, creating it. -/
def addTo (q : Query) (k v : Str) : Query :=
  match q with
  | [] => [(k, [v])]
  | e :: q => if e.1 = k then (e.1, e.2 ++ [v]) :: q else e :: addTo q k v

/-- url.n:149-168: one round of the loop of `query`. -/
def queryPair (q : Query) (pair : Str) : Res Query :=
  (split pair [61#8]).bind fun kv =>
  if kv.length ≥ 1 then
    match kv with
    | [k, v] => .ok (addTo q (decode k) (decode v))
    | k :: _ => .ok (addTo q (decode k) (decode []))
    | [] => .ok q
  else .ok q

def queryLoop : List Str → Query → Res Query
  | [], q => .ok q
  | p :: ps, q => (queryPair q p).bind fun q => queryLoop ps q

/-- url.n:141-171 `url_t.query`. -/
def query (raw : Str) : Res Query :=
  if raw.length = 0 then .ok []
  else (split raw [38#8]).bind fun pairs => queryLoop pairs []

/-- url.n:133-139 `query_t.get`: the first value of the key, or the empty string. -/
def Query.get (q : Query) (k : Str) : Str :=
  match q.find? (fun e => decide (e.1 = k)) with
  | some e => e.2.headD []
  | none => []

/-- url.n:173-179 `request_uri`. -/
def requestUri (u : U) : Str :=
  if u.rawQuery.length > 0 then u.path ++ [63#8] ++ u.rawQuery else u.path

end Nature.Url
