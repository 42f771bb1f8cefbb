/-
Model of the runtime bitmap: /repo/utils/bitmap.h.

A `uint8_t *bits` buffer is a list of bytes (`BitVec 8`).  Every access outside the buffer is undefined
behaviour in C; here it is the outcome `none`.  Indices and counts are unbounded naturals
(C: `uint64_t`; no index used by the callers comes near 2^64).
-/
namespace Nature.Bitmap

/-- A `uint8_t *bits` buffer (utils/bitmap.h:11). -/
abbrev Bytes := List (BitVec 8)

/-- Read-modify-write of `bits[k]`; touching a byte outside the buffer is undefined behaviour (`none`).
Models the C lvalue updates `bits[k] |= …`, `bits[k] &= …`. -/
def modifyByte (bits : Bytes) (k : Nat) (f : BitVec 8 → BitVec 8) : Option Bytes :=
  match bits[k]? with
  | some b => some (bits.set k (f b))
  | none => none

/-- C `memset(&bits[start], v, n)`; writing past the buffer is undefined behaviour (`none`). -/
def memset (bits : Bytes) (start n : Nat) (v : BitVec 8) : Option Bytes :=
  if start + n ≤ bits.length then
    some (bits.mapIdx fun k b => if start ≤ k ∧ k < start + n then v else b)
  else none

/-- utils/bitmap.h:34-37 `bitmap_set`: `bits[index / 8] |= 1 << (index & 7)`. -/
def set (bits : Bytes) (index : Nat) : Option Bytes :=
  modifyByte bits (index / 8) (· ||| BitVec.ofNat 8 (1 <<< (index % 8)))

/-- utils/bitmap.h:114-117 `bitmap_clear`: `bits[index / 8] &= ~(1 << (index & 7))`. -/
def clear (bits : Bytes) (index : Nat) : Option Bytes :=
  modifyByte bits (index / 8) (· &&& ~~~ BitVec.ofNat 8 (1 <<< (index % 8)))

/-- utils/bitmap.h:131-133 `bitmap_test`: `bits[index / 8] & (1 << (index & 7))` converted to `bool`. -/
def test (bits : Bytes) (index : Nat) : Option Bool :=
  match bits[index / 8]? with
  | some b => some ((b &&& BitVec.ofNat 8 (1 <<< (index % 8))) != 0#8)
  | none => none

/-- utils/bitmap.h:40-75 `bitmap_batch_clear`, branch by branch. -/
def batchClear (bits : Bytes) (index count : Nat) : Option Bytes :=
  if count = 0 then some bits
  else
    let startByte := index / 8
    let startBit := index % 8
    let endIndex := index + count
    let endByte := endIndex / 8
    let endBit := endIndex % 8
    -- lines 52-56: start and end inside one byte
    if startByte = endByte then
      modifyByte bits startByte (· &&& ~~~ BitVec.ofNat 8 (((1 <<< count) - 1) <<< startBit))
    else
      -- lines 59-63: leading partial byte
      (if startBit ≠ 0 then
        (modifyByte bits startByte (· &&& ~~~ BitVec.ofNat 8 (0xFF <<< startBit))).map (·, startByte + 1)
      else some (bits, startByte)).bind fun p =>
      -- lines 66-68: whole bytes
      (if p.2 < endByte then memset p.1 p.2 (endByte - p.2) 0#8 else some p.1).bind fun bits =>
      -- lines 71-74: trailing partial byte
      if endBit ≠ 0 then
        modifyByte bits endByte (· &&& ~~~ BitVec.ofNat 8 ((1 <<< endBit) - 1))
      else some bits

/-- utils/bitmap.h:77-112 `bitmap_batch_set`, branch by branch. -/
def batchSet (bits : Bytes) (index count : Nat) : Option Bytes :=
  if count = 0 then some bits
  else
    let startByte := index / 8
    let startBit := index % 8
    let endIndex := index + count
    let endByte := endIndex / 8
    let endBit := endIndex % 8
    -- lines 89-93: start and end inside one byte
    if startByte = endByte then
      modifyByte bits startByte (· ||| BitVec.ofNat 8 (((1 <<< count) - 1) <<< startBit))
    else
      -- lines 96-100: leading partial byte
      (if startBit ≠ 0 then
        (modifyByte bits startByte (· ||| BitVec.ofNat 8 (0xFF <<< startBit))).map (·, startByte + 1)
      else some (bits, startByte)).bind fun p =>
      -- lines 103-105: whole bytes
      (if p.2 < endByte then memset p.1 p.2 (endByte - p.2) 0xFF#8 else some p.1).bind fun bits =>
      -- lines 108-111: trailing partial byte
      if endBit ≠ 0 then
        modifyByte bits endByte (· ||| BitVec.ofNat 8 ((1 <<< endBit) - 1))
      else some bits

/-- utils/bitmap.h:142-146: the loop of `bitmap_empty` over whole bytes; `none` = read outside the buffer. -/
def bytesZero (bits : Bytes) : Nat → Option Bool
  | 0 => some true
  | n + 1 =>
    match bits with
    | [] => none
    | b :: rest => if b ≠ 0#8 then some false else bytesZero rest n

/-- utils/bitmap.h:135-158 `bitmap_empty`. -/
def isEmpty (bits : Bytes) (count : Nat) : Option Bool :=
  match bytesZero bits (count / 8) with
  | none => none
  | some false => some false
  | some true =>
    if 0 < count % 8 then
      match bits[count / 8]? with
      | none => none
      | some b => some (!((b &&& BitVec.ofNat 8 ((1 <<< (count % 8)) - 1)) != 0#8))
    else some true

/-- utils/bitmap.h:185-200 `bitmap_grow_set` on a `bitmap_t` whose buffer has `size` bytes
(the field comment says bits, every user treats it as bytes).  `mallocz(0)` asserts
(utils/helper.h:187), modelled by `none`. -/
def growSet (bits : Bytes) (index : Nat) (v : Bool) : Option Bytes :=
  let need := index / 8
  if need ≥ bits.length then
    if need * 2 = 0 then none
    else
      let nb := bits ++ List.replicate (need * 2 - bits.length) 0#8
      if v then set nb index else clear nb index
  else if v then set bits index else clear bits index

end Nature.Bitmap
