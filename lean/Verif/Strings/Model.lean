import Verif.Common
/-!
Model of the string library std/strings/strings.n.

A string is the list of its bytes; its buffer is followed by a NUL byte (runtime/nutils/string.c).  Conversions between
`[u8]` and `string` are modelled as exact copies; for contents with NUL bytes see C41 for what the runtime's pool can do.
`int` is 64-bit and no value here comes near its limits except in `to_int`, which is bounded explicitly.
Vector reads out of range throw.
-/
namespace Nature.Strings
open Nature

abbrev Byte := BitVec 8
abbrev Str := List Byte

/-- Indexed read `s[k]`. -/
def at' (s : Str) (k : Nat) : Res Byte :=
  match s[k]? with
  | some x => .ok x
  | none => .throws

/-- strings.n:12-21, the loop of `find_char` from `k`, `fuel = len - k` rounds. -/
def findCharFrom (s : Str) (c : Byte) : Nat → Nat → Res Int
  | 0, _ => .ok (-1)
  | f + 1, k => (at' s k).bind fun x => if x = c then .ok (k : Int) else findCharFrom s c f (k + 1)

/-- strings.n:12-21 `string.find_char(char, after)`. -/
def findChar (s : Str) (c : Byte) (after : Nat) : Res Int := findCharFrom s c (s.length - after) after

/-- What C sees of a NUL-terminated buffer. -/
def cstr (s : Str) : Str := s.takeWhile fun x => x != 0#8

/-- C library `strstr` on two C strings: offset of the first occurrence. -/
def strstr : Str → Str → Nat → Option Nat
  | [], needle, i => if needle.isPrefixOf [] = true then some i else none
  | x :: hay, needle, i => if needle.isPrefixOf (x :: hay) = true then some i else strstr hay needle (i + 1)

/-- strings.n:23-42 `string.find_after(sub, after)`; a start beyond the terminating NUL is undefined behaviour. -/
def findAfter (s sub : Str) (after : Nat) : Res Int :=
  if sub.length = 0 then .ok (-1)
  else if sub.length = 1 then (at' sub 0).bind fun c => findChar s c after
  else if after > s.length then .ub
  else
    match strstr (cstr (s.drop after)) (cstr sub) 0 with
    | none => .ok (-1)
    | some i => .ok ((after + i : Nat) : Int)

/-- strings.n:122-124 `string.find`. -/
def find (s sub : Str) : Res Int := findAfter s sub 0
/-- strings.n:110-112 `string.contains`. -/
def contains (s sub : Str) : Res Bool := (find s sub).bind fun i => .ok (decide (i ≠ -1))

/-- Indexed write `v[k] = x`. -/
def put (v : Str) (k : Nat) (x : Byte) : Res Str := if k < v.length then .ok (v.set k x) else .throws

/-- strings.n:47-49: `for i, c in self { result[self.len() - 1 - i] = c }`. -/
def reverseLoop (len : Nat) : Str → Nat → Str → Res Str
  | [], _, r => .ok r
  | c :: cs, i, r => (put r (len - 1 - i) c).bind fun r => reverseLoop len cs (i + 1) r
/-- strings.n:44-52 `string.reverse`. -/
def reverse (s : Str) : Res Str := reverseLoop s.length s 0 (List.replicate s.length 0#8)

/-- strings.n:65-70: the inner loop of `rfind`, `f = sub.len() - j` rounds left. -/
def matchAt (s sub : Str) (i : Nat) : Nat → Nat → Res Bool
  | 0, _ => .ok true
  | f + 1, j =>
    (at' s (i + j)).bind fun x => (at' sub j).bind fun y =>
    if x ≠ y then .ok false else matchAt s sub i f (j + 1)
/-- strings.n:63-76: the outer loop of `rfind`, from `i = n - 1` down to 0. -/
def rfindLoop (s sub : Str) : Nat → Res Int
  | 0 => .ok (-1)
  | i + 1 => (matchAt s sub i sub.length 0).bind fun b => if b = true then .ok (i : Int) else rfindLoop s sub i
/-- strings.n:54-77 `string.rfind`. -/
def rfind (s sub : Str) : Res Int :=
  if sub.length = 0 then .ok (-1)
  else if sub.length > s.length then .ok (-1)
  else rfindLoop s sub (s.length - sub.length + 1)

/-- strings.n:87-93 and 101-107: `for i, c in t { if self[start + i] != c { return false } }`. -/
def prefixLoop (s : Str) (start : Nat) : Str → Nat → Res Bool
  | [], _ => .ok true
  | c :: cs, i => (at' s (start + i)).bind fun x => if x ≠ c then .ok false else prefixLoop s start cs (i + 1)
/-- strings.n:80-94 `string.ends_with`. -/
def endsWith (s t : Str) : Res Bool := if t.length > s.length then .ok false else prefixLoop s (s.length - t.length) t 0
/-- strings.n:96-108 `string.starts_with`. -/
def startsWith (s t : Str) : Res Bool := if t.length > s.length then .ok false else prefixLoop s 0 t 0

/-- strings.n:126-130 `string.slice` (vec.c:297-332 for the bounds). -/
def slice (s : Str) (start fin : Int) : Res Str :=
  let fin := if fin = -1 then (s.length : Int) else fin
  if start > s.length ∨ fin > s.length ∨ start < 0 ∨ fin < 0 then .throws
  else if start > fin then .throws
  else .ok ((s.drop start.toNat).take (fin - start).toNat)

/-- strings.n:153-165: the loop of `split`; `fuel` bounds the rounds (running out is the outcome `abort`, shown not to happen). -/
def splitLoop (s sep : Str) : Nat → Nat → Res (List Str)
  | 0, _ => .abort
  | f + 1, i =>
    if i < s.length then
      (findAfter s sep i).bind fun found =>
      if found = -1 then (slice s i s.length).bind fun p => .ok [p]
      else
        (slice s i found).bind fun p =>
        (splitLoop s sep f (found.toNat + sep.length)).bind fun rest => .ok (p :: rest)
    else .ok []

/-- strings.n:132-168 `string.split`. -/
def split (s sep : Str) : Res (List Str) :=
  if sep = [] then .ok (s.map fun v => [v])
  else if s = [] then .ok []
  else if s.length < sep.length then .ok [s]
  else splitLoop s sep (s.length + 1) 0

/-- strings.n:177-190: the loop of `join`. -/
def joinLoop (sep : Str) (n : Nat) : List Str → Nat → Str → Str
  | [], _, r => r
  | p :: ps, i, r => joinLoop sep n ps (i + 1) (if (i : Int) < (n : Int) - 1 then r ++ p ++ sep else r ++ p)
/-- strings.n:170-193 `join`. -/
def join (l : List Str) (sep : Str) : Str := if l.length = 0 then [] else joinLoop sep l.length l 0 []

/-- strings.n:204-207: the cut set, the first byte of each entry; an empty entry throws.  (A deletion-free set, C19.) -/
def cutSet : List Str → Res (List Byte)
  | [] => .ok []
  | t :: ts => (at' t 0).bind fun c => (cutSet ts).bind fun r => .ok (c :: r)

/-- strings.n:209-213: the loop of `ltrim`. -/
def ltrimLoop (s : Str) (cut : List Byte) : Str → Nat → Res Str
  | [], _ => .ok []
  | c :: cs, i => if c ∈ cut then ltrimLoop s cut cs (i + 1) else slice s i s.length
/-- strings.n:203-216 `string.ltrim`. -/
def ltrim (s : Str) (l : List Str) : Res Str := (cutSet l).bind fun cut => ltrimLoop s cut s 0

/-- strings.n:224-228: the loop of `rtrim` from index `n - 1` down. -/
def rtrimLoop (s : Str) (cut : List Byte) : Nat → Res Str
  | 0 => .ok []
  | i + 1 => (at' s i).bind fun c => if c ∈ cut then rtrimLoop s cut i else slice s 0 ((i : Int) + 1)
/-- strings.n:218-231 `string.rtrim`. -/
def rtrim (s : Str) (l : List Str) : Res Str := (cutSet l).bind fun cut => rtrimLoop s cut s.length
/-- strings.n:233-235 `string.trim`. -/
def trim (s : Str) (l : List Str) : Res Str := (ltrim s l).bind fun s => rtrim s l

/-- strings.n:244-256: the loop of `replace`. -/
def replaceLoop (s old new : Str) : Nat → Nat → Str → Res Str
  | 0, _, _ => .abort
  | f + 1, i, r =>
    if i < s.length then
      (findAfter s old i).bind fun found =>
      if found = -1 then (slice s i s.length).bind fun p => .ok (r ++ p)
      else
        (slice s i found).bind fun p => replaceLoop s old new f (found.toNat + old.length) (r ++ p ++ new)
    else .ok r
/-- strings.n:237-259 `string.replace`. -/
def replace (s old new : Str) : Res Str :=
  if old.length = 0 ∨ s.length < old.length then .ok s else replaceLoop s old new (s.length + 1) 0 []

/-- strings.n:278-283: index of the first non-space at or after `start`, or `start` itself. -/
def skipSpaces (s : Str) (start : Nat) : Nat → Nat → Res Nat
  | 0, _ => .ok start
  | f + 1, i => (at' s i).bind fun c => if c ≠ 32#8 then .ok i else skipSpaces s start f (i + 1)

/-- strings.n:285-296: the digit loop of `to_int`. -/
def digitLoop (s : Str) : Nat → Nat → Int → Res Int
  | 0, _, r => .ok r
  | f + 1, i, r =>
    (at' s i).bind fun c =>
    if c.toNat < 48 ∨ c.toNat > 57 then .throws
    else if r > 2147483647 / 10 then .throws
    else digitLoop s f (i + 1) (r * 10 + (c - 48#8).toNat)

/-- strings.n:261-303 `string.to_int`. -/
def toInt (s : Str) : Res Int :=
  if s.length = 0 then .throws
  else
    (at' s 0).bind fun c0 =>
    let neg := decide (c0 = 45#8)
    if neg = true ∧ s.length = 1 then .throws
    else
      let start := if neg = true then 1 else 0
      (skipSpaces s start (s.length - start) start).bind fun start =>
      (digitLoop s (s.length - start) start 0).bind fun r =>
      .ok (if neg = true then -r else r)

/-- strings.n:374-380 / 388-394: `for i, c in self { result[i] = f(c) }`. -/
def mapLoop (f : Byte → Byte) : Str → Nat → Str → Res Str
  | [], _, r => .ok r
  | c :: cs, i, r => (put r i (f c)).bind fun r => mapLoop f cs (i + 1) r
/-- strings.n:371-383 `string.to_lower`. -/
def toLower (s : Str) : Res Str :=
  mapLoop (fun c => if c.toNat ≥ 65 ∧ c.toNat ≤ 90 then c + (97#8 - 65#8) else c) s 0 (List.replicate s.length 0#8)
/-- strings.n:385-397 `string.to_upper`. -/
def toUpper (s : Str) : Res Str :=
  mapLoop (fun c => if c.toNat ≥ 97 ∧ c.toNat ≤ 122 then c - (97#8 - 65#8) else c) s 0 (List.replicate s.length 0#8)

end Nature.Strings
