import Verif.Common
/-!
Model of the built-in string operations: runtime/nutils/string.c.
A string is the list of its bytes (`data[0..length)`); buffers are byte lists and writes outside them are `ub`.
-/
namespace Nature.Str
open Nature

abbrev Byte := BitVec 8

/-- C `memcmp` of the first `n` bytes: negative, zero or positive, as `-1`, `0`, `1`; bytes compare as unsigned. -/
def memcmp : Nat → List Byte → List Byte → Res Int
  | 0, _, _ => .ok 0
  | n + 1, x :: xs, y :: ys => if x.toNat < y.toNat then .ok (-1) else if y.toNat < x.toNat then .ok 1 else memcmp n xs ys
  | _ + 1, _, _ => .ub

/-- C `memmove(buf + off, src, |src|)`. -/
def write (buf : List Byte) (off : Nat) (src : List Byte) : Res (List Byte) :=
  if off + src.length ≤ buf.length then .ok (buf.take off ++ src ++ buf.drop (off + src.length)) else .ub

/-- string.c:133-136 `string_ee`. -/
def ee (a b : List Byte) : Res Bool :=
  if a.length = b.length then (memcmp a.length a b).bind fun c => .ok (decide (c = 0)) else .ok false
/-- string.c:138-141 `string_ne`. -/
def ne (a b : List Byte) : Res Bool :=
  if a.length ≠ b.length then .ok true else (memcmp a.length a b).bind fun c => .ok (decide (c ≠ 0))
/-- The common first lines of the ordering functions: `memcmp` of the common length. -/
def cmp (a b : List Byte) : Res Int := memcmp (if a.length < b.length then a.length else b.length) a b
/-- string.c:143-148 `string_lt`. -/
def lt (a b : List Byte) : Res Bool := (cmp a b).bind fun c => .ok (decide (c < 0) || (decide (c = 0) && decide (a.length < b.length)))
/-- string.c:150-155 `string_le`. -/
def le (a b : List Byte) : Res Bool := (cmp a b).bind fun c => .ok (decide (c < 0) || (decide (c = 0) && decide (a.length ≤ b.length)))
/-- string.c:157-162 `string_gt`. -/
def gt (a b : List Byte) : Res Bool := (cmp a b).bind fun c => .ok (decide (c > 0) || (decide (c = 0) && decide (a.length > b.length)))
/-- string.c:164-169 `string_ge`. -/
def ge (a b : List Byte) : Res Bool := (cmp a b).bind fun c => .ok (decide (c > 0) || (decide (c = 0) && decide (a.length ≥ b.length)))

/-- A string header: its data buffer (`capacity` bytes) and length. -/
structure Hdr where
  data : List Byte
  length : Nat
  deriving DecidableEq, Repr

/-- string.c:105-126 `string_concat`; `rti_array_new` gives a zeroed buffer. -/
def concat (a b : List Byte) : Res Hdr :=
  let length := a.length + b.length
  (write (List.replicate (length + 1) 0#8) 0 a).bind fun d =>
  (write d a.length b).bind fun d =>
  (write d length [0#8]).bind fun d => .ok ⟨d, length⟩

/-- string.c:83-103 `string_new` (also the tail of `string_new_with_pool`, 35-46). -/
def new (raw : List Byte) : Res Hdr :=
  (write (List.replicate (raw.length + 1) 0#8) 0 raw).bind fun d =>
  (write d raw.length [0#8]).bind fun d => .ok ⟨d, raw.length⟩

/-- The bytes a program sees. -/
def Hdr.bytes (h : Hdr) : List Byte := h.data.take h.length

/-! ### The pool of small strings -/

/-- The C string at an address holding `mem`: bytes up to the first NUL; without a NUL the read runs off (`none`). -/
def cstr : List Byte → Option (List Byte)
  | [] => none
  | x :: xs => if x = 0#8 then some [] else (cstr xs).map (x :: ·)

/-- `const_str_pool` (sc_map_sv): C-string keys to string headers. -/
abbrev Pool := List (List Byte × Hdr)

/-- utils/sc_map.h `sc_map_get_sv`: compares keys with `strcmp`. -/
def poolGet (p : Pool) (k : List Byte) : Option Hdr := (p.find? fun e => decide (e.1 = k)).map Prod.snd
/-- `sc_map_put_sv`: replaces the value of an existing key. -/
def poolPut (p : Pool) (k : List Byte) (h : Hdr) : Pool := (k, h) :: p.filter fun e => decide (e.1 ≠ k)

/-- string.c:19-75 `string_new_with_pool(raw_string, length)`: `raw` are the `length` bytes, `beyond` the bytes that
follow them in memory (a vector's data need not be NUL-terminated).  Single-threaded: the second lookup (59-65) repeats
the first.  `vec_to_string` (15-17) is this function. -/
def newWithPool (p : Pool) (raw beyond : List Byte) : Res (Hdr × Pool) :=
  match cstr (raw ++ beyond) with
  | none => .ub
  | some key =>
    match poolGet p key with
    | some h => if h.length = raw.length then .ok (h, p) else fresh p raw
    | none => fresh p raw
where
  /-- string.c:35-74: a new string, entered into the pool when its capacity is at most 8. -/
  fresh (p : Pool) (raw : List Byte) : Res (Hdr × Pool) :=
    (new raw).bind fun h =>
    if raw.length + 1 ≤ 8 then
      match cstr h.data with
      | some k => .ok (h, poolPut p k h)
      | none => .ub
    else .ok (h, p)

/-- string.c:11-13 `string_to_vec`. -/
def toVec (h : Hdr) : Res Hdr := new h.bytes

end Nature.Str
