import Verif.Map.Model
/-!
Model of key images: nutils.c:828-864 `rtype_value_to_str`, helper.h:262-282 `hash_data`, `hash_string`,
helper.h:355-367 `itoa`, helper.h:377-386 `str_equal`.
-/
namespace Nature.Map
open Nature

abbrev Byte := BitVec 8

/-- What `strcmp`/`strlen` see of a NUL-terminated buffer holding `b`: the bytes before the first NUL. -/
def cstr (b : List Byte) : List Byte := b.takeWhile (fun x => x != 0#8)

/-- Decimal digits of `n` in ASCII, most significant first; `n < 10^fuel`. -/
def decDigits : Nat → Nat → List Byte
  | 0, _ => []
  | fuel + 1, n => if n < 10 then [BitVec.ofNat 8 (48 + n)] else decDigits fuel (n / 10) ++ [BitVec.ofNat 8 (48 + n % 10)]

/-- helper.h:355-367 `itoa`: `snprintf("%" PRId64)` (at most 19 digits). -/
def itoa (n : Int) : List Byte := if n < 0 then 45#8 :: decDigits 20 n.natAbs else decDigits 20 n.natAbs

/-- How a key type is stored (type.h `storage_kind`, with its `storage_size`). -/
inductive KeyKind where
  | string
  | ind (size : Nat)
  | direct (size : Nat)

/-- The little-endian number in a byte list. -/
def leNat : List Byte → Nat
  | [] => 0
  | x :: xs => x.toNat + 256 * leNat xs

/-- An `int64_t` from its unsigned value. -/
def toI64 (n : Nat) : Int := if n < 9223372036854775808 then n else (n : Int) - 18446744073709551616

/-- nutils.c:828-864 `rtype_value_to_str(rtype, ref)`.  The key is given by its bytes: the content for a string, the
stored bytes otherwise.  `none` is the assertion failure for direct types above 8 bytes. -/
def valueToStr : KeyKind → List Byte → Option (List Byte)
  | .string, b => some (cstr b)
  | .ind _, b => some (cstr b)
  | .direct size, b => if size ≤ 8 then some (itoa (toI64 (leNat b))) else none

/-- helper.h:262-273 `hash_data`: 32-bit FNV-1a. -/
def hashData (b : List Byte) : BitVec 32 :=
  b.foldl (fun h x => (h ^^^ x.setWidth 32) * 16777619#32) 2166136261#32

/-- helper.h:275-282 `hash_string`. -/
def hashString (b : List Byte) : Nat := if b.length = 0 then 0 else (hashData b).toNat

/-- Comparison and hashing of keys of a kind, hash.h:43-58. -/
def keyOps (kind : KeyKind) : KeyOps (List Byte) (Option (List Byte)) :=
  ⟨valueToStr kind, fun i => hashString (i.getD [])⟩

end Nature.Map
