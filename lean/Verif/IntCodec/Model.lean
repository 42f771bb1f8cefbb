import Verif.Common
/-!
Model of the fixed-width integer serialisation of std/mem/mem.n and utils/helper.h.
Every integer is a bit vector of its width (floats: their bit pattern, which is
what the `memmove` on mem.n:83-95, 163-175 and 297-349 reads and writes).  `>>` of a signed value is
the arithmetic shift, of an unsigned one the logical shift.  A conversion `as u8`
keeps the low byte, `as iN`/`as uN` of a byte extends with zeros.
-/
namespace Nature.IntCodec
open Nature

abbrev Byte := BitVec 8

/-- `((i >> o) & 0xFF) as u8` for unsigned `i` (no shift is written for `o = 0`). -/
def put {w : Nat} (i : BitVec w) (o : Nat) : Byte := ((i >>> o) &&& BitVec.ofNat w 0xFF).setWidth 8
/-- `((i >> o) & 0xFF) as u8` for signed `i`. -/
def sput {w : Nat} (i : BitVec w) (o : Nat) : Byte := ((i.sshiftRight o) &&& BitVec.ofNat w 0xFF).setWidth 8
/-- `(b as T) << o`. -/
def get (w : Nat) (b : Byte) (o : Nat) : BitVec w := b.setWidth w <<< o

/-- mem.n:17-19, 97-99 `write_u8_le`, `write_u8_be`. -/
def write_u8 (i : BitVec 8) : List Byte := [i]
/-- mem.n:21-26 -/
def write_u16_le (i : BitVec 16) : List Byte := [put i 0, put i 8]
/-- mem.n:28-35 -/
def write_u32_le (i : BitVec 32) : List Byte := [put i 0, put i 8, put i 16, put i 24]
/-- mem.n:37-48 -/
def write_u64_le (i : BitVec 64) : List Byte :=
  [put i 0, put i 8, put i 16, put i 24, put i 32, put i 40, put i 48, put i 56]
/-- mem.n:50-52, 130-132 `write_i8_le`, `write_i8_be`. -/
def write_i8 (i : BitVec 8) : List Byte := [i]
/-- mem.n:54-59 -/
def write_i16_le (i : BitVec 16) : List Byte := [sput i 0, sput i 8]
/-- mem.n:61-68 -/
def write_i32_le (i : BitVec 32) : List Byte := [sput i 0, sput i 8, sput i 16, sput i 24]
/-- mem.n:70-81 -/
def write_i64_le (i : BitVec 64) : List Byte :=
  [sput i 0, sput i 8, sput i 16, sput i 24, sput i 32, sput i 40, sput i 48, sput i 56]
/-- mem.n:83-88 -/
def write_f32_le (bits : BitVec 32) : List Byte := write_u32_le bits
/-- mem.n:90-95 -/
def write_f64_le (bits : BitVec 64) : List Byte := write_u64_le bits
/-- mem.n:101-106 -/
def write_u16_be (i : BitVec 16) : List Byte := [put i 8, put i 0]
/-- mem.n:108-115 -/
def write_u32_be (i : BitVec 32) : List Byte := [put i 24, put i 16, put i 8, put i 0]
/-- mem.n:117-128 -/
def write_u64_be (i : BitVec 64) : List Byte :=
  [put i 56, put i 48, put i 40, put i 32, put i 24, put i 16, put i 8, put i 0]
/-- mem.n:134-139 -/
def write_i16_be (i : BitVec 16) : List Byte := [sput i 8, sput i 0]
/-- mem.n:141-148 -/
def write_i32_be (i : BitVec 32) : List Byte := [sput i 24, sput i 16, sput i 8, sput i 0]
/-- mem.n:150-161 -/
def write_i64_be (i : BitVec 64) : List Byte :=
  [sput i 56, sput i 48, sput i 40, sput i 32, sput i 24, sput i 16, sput i 8, sput i 0]
/-- mem.n:163-168 -/
def write_f32_be (bits : BitVec 32) : List Byte := write_u32_be bits
/-- mem.n:170-175 -/
def write_f64_be (bits : BitVec 64) : List Byte := write_u64_be bits

/-- mem.n:177-183 `read_u8_le`; the other one-byte reads (207-212, 238-243, 267-272) are the same.
A short buffer throws. -/
def read_8 : List Byte → Res (BitVec 8)
  | b0 :: _ => .ok b0
  | _ => .throws
/-- mem.n:185-190 -/
def read_u16_le : List Byte → Res (BitVec 16)
  | b0 :: b1 :: _ => .ok (get 16 b1 8 ||| get 16 b0 0)
  | _ => .throws
/-- mem.n:192-197, and the bits of `read_f32_le` -/
def read_u32_le : List Byte → Res (BitVec 32)
  | b0 :: b1 :: b2 :: b3 :: _ => .ok (get 32 b3 24 ||| get 32 b2 16 ||| get 32 b1 8 ||| get 32 b0 0)
  | _ => .throws
/-- mem.n:199-205, and the bits of `read_f64_le` -/
def read_u64_le : List Byte → Res (BitVec 64)
  | b0 :: b1 :: b2 :: b3 :: b4 :: b5 :: b6 :: b7 :: _ =>
    .ok (get 64 b7 56 ||| get 64 b6 48 ||| get 64 b5 40 ||| get 64 b4 32 |||
      get 64 b3 24 ||| get 64 b2 16 ||| get 64 b1 8 ||| get 64 b0 0)
  | _ => .throws
/-- mem.n:214-219 (the signed reads shift and join the same bits) -/
def read_i16_le : List Byte → Res (BitVec 16)
  | b0 :: b1 :: _ => .ok (get 16 b1 8 ||| get 16 b0 0)
  | _ => .throws
/-- mem.n:221-226 -/
def read_i32_le : List Byte → Res (BitVec 32)
  | b0 :: b1 :: b2 :: b3 :: _ => .ok (get 32 b3 24 ||| get 32 b2 16 ||| get 32 b1 8 ||| get 32 b0 0)
  | _ => .throws
/-- mem.n:228-234 -/
def read_i64_le : List Byte → Res (BitVec 64)
  | b0 :: b1 :: b2 :: b3 :: b4 :: b5 :: b6 :: b7 :: _ =>
    .ok (get 64 b7 56 ||| get 64 b6 48 ||| get 64 b5 40 ||| get 64 b4 32 |||
      get 64 b3 24 ||| get 64 b2 16 ||| get 64 b1 8 ||| get 64 b0 0)
  | _ => .throws
/-- mem.n:245-250 -/
def read_u16_be : List Byte → Res (BitVec 16)
  | b0 :: b1 :: _ => .ok (get 16 b0 8 ||| get 16 b1 0)
  | _ => .throws
/-- mem.n:252-257, and the bits of `read_f32_be` -/
def read_u32_be : List Byte → Res (BitVec 32)
  | b0 :: b1 :: b2 :: b3 :: _ => .ok (get 32 b0 24 ||| get 32 b1 16 ||| get 32 b2 8 ||| get 32 b3 0)
  | _ => .throws
/-- mem.n:259-265, and the bits of `read_f64_be` -/
def read_u64_be : List Byte → Res (BitVec 64)
  | b0 :: b1 :: b2 :: b3 :: b4 :: b5 :: b6 :: b7 :: _ =>
    .ok (get 64 b0 56 ||| get 64 b1 48 ||| get 64 b2 40 ||| get 64 b3 32 |||
      get 64 b4 24 ||| get 64 b5 16 ||| get 64 b6 8 ||| get 64 b7 0)
  | _ => .throws
/-- mem.n:274-279 -/
def read_i16_be : List Byte → Res (BitVec 16)
  | b0 :: b1 :: _ => .ok (get 16 b0 8 ||| get 16 b1 0)
  | _ => .throws
/-- mem.n:281-286 -/
def read_i32_be : List Byte → Res (BitVec 32)
  | b0 :: b1 :: b2 :: b3 :: _ => .ok (get 32 b0 24 ||| get 32 b1 16 ||| get 32 b2 8 ||| get 32 b3 0)
  | _ => .throws
/-- mem.n:288-294 -/
def read_i64_be : List Byte → Res (BitVec 64)
  | b0 :: b1 :: b2 :: b3 :: b4 :: b5 :: b6 :: b7 :: _ =>
    .ok (get 64 b0 56 ||| get 64 b1 48 ||| get 64 b2 40 ||| get 64 b3 32 |||
      get 64 b4 24 ||| get 64 b5 16 ||| get 64 b6 8 ||| get 64 b7 0)
  | _ => .throws

/-! ### The C helpers: `p` is the memory from the pointer on; a short memory is undefined behaviour. -/

/-- helper.h:301-303 `read16le`. -/
def read16le : List Byte → Res (BitVec 16)
  | b0 :: b1 :: _ => .ok (b0.setWidth 16 ||| get 16 b1 8)
  | _ => .ub
/-- helper.h:305-308 `write16le`: the memory after the store. -/
def write16le (p : List Byte) (x : BitVec 16) : Res (List Byte) :=
  match p with
  | _ :: _ :: t => .ok (put x 0 :: put x 8 :: t)
  | _ => .ub
/-- helper.h:310-312 `read32le`. -/
def read32le (p : List Byte) : Res (BitVec 32) :=
  (read16le p).bind fun a => (read16le (p.drop 2)).bind fun b =>
  .ok (a.setWidth 32 ||| b.setWidth 32 <<< 16)
/-- helper.h:314-317 `write32le` (the argument of `write16le` is converted to 16 bits). -/
def write32le (p : List Byte) (x : BitVec 32) : Res (List Byte) :=
  (write16le p (x.setWidth 16)).bind fun p =>
  (write16le (p.drop 2) ((x >>> 16).setWidth 16)).bind fun q => .ok (p.take 2 ++ q)
/-- helper.h:319-321 `add32le`. -/
def add32le (p : List Byte) (x : BitVec 32) : Res (List Byte) :=
  (read32le p).bind fun v => write32le p (v + x)
/-- helper.h:323-325 `read64le`. -/
def read64le (p : List Byte) : Res (BitVec 64) :=
  (read32le p).bind fun a => (read32le (p.drop 4)).bind fun b =>
  .ok (a.setWidth 64 ||| b.setWidth 64 <<< 32)
/-- helper.h:327-330 `write64le`. -/
def write64le (p : List Byte) (x : BitVec 64) : Res (List Byte) :=
  (write32le p (x.setWidth 32)).bind fun p =>
  (write32le (p.drop 4) ((x >>> 32).setWidth 32)).bind fun q => .ok (p.take 4 ++ q)
/-- helper.h:332-334 `add64le`. -/
def add64le (p : List Byte) (x : BitVec 64) : Res (List Byte) :=
  (read64le p).bind fun v => write64le p (v + x)

end Nature.IntCodec
