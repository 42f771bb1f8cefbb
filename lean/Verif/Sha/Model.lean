import Verif.Sha.Spec

/-!
# The hash function of the linker

src/ld/sha256.c.  `uint8_t`, `uint32_t` and `uint64_t` are bit vectors; memory is lists of bytes.  `Eight` and `Byte`, `Word` are plain
data shared with the specification.
-/

namespace Nature.Sha

open Spec (Byte Word Eight)

/-- The table `k`. src/ld/sha256.c:5-70 -/
def k : List Word :=
  [0x428a2f98, 0x71374491, 0xb5c0fbcf, 0xe9b5dba5, 0x3956c25b, 0x59f111f1, 0x923f82a4, 0xab1c5ed5,
   0xd807aa98, 0x12835b01, 0x243185be, 0x550c7dc3, 0x72be5d74, 0x80deb1fe, 0x9bdc06a7, 0xc19bf174,
   0xe49b69c1, 0xefbe4786, 0x0fc19dc6, 0x240ca1cc, 0x2de92c6f, 0x4a7484aa, 0x5cb0a9dc, 0x76f988da,
   0x983e5152, 0xa831c66d, 0xb00327c8, 0xbf597fc7, 0xc6e00bf3, 0xd5a79147, 0x06ca6351, 0x14292967,
   0x27b70a85, 0x2e1b2138, 0x4d2c6dfc, 0x53380d13, 0x650a7354, 0x766a0abb, 0x81c2c92e, 0x92722c85,
   0xa2bfe8a1, 0xa81a664b, 0xc24b8b70, 0xc76c51a3, 0xd192e819, 0xd6990624, 0xf40e3585, 0x106aa070,
   0x19a4c116, 0x1e376c08, 0x2748774c, 0x34b0bcb5, 0x391c0cb3, 0x4ed8aa4a, 0x5b9cca4f, 0x682e6ff3,
   0x748f82ee, 0x78a5636f, 0x84c87814, 0x8cc70208, 0x90befffa, 0xa4506ceb, 0xbef9a3f7, 0xc67178f2]

/-- rotr. src/ld/sha256.c:72-74 -/
def rotr (value : Word) (amount : Nat) : Word := (value >>> amount) ||| (value <<< (32 - amount))

/-- load_be32: `p` is the memory and `at_` the place. src/ld/sha256.c:76-78 -/
def loadBe32 (p : List Byte) (at_ : Nat) : Word :=
  ((p.getD at_ 0).setWidth 32 <<< 24) ||| ((p.getD (at_ + 1) 0).setWidth 32 <<< 16) ||| ((p.getD (at_ + 2) 0).setWidth 32 <<< 8) |||
    (p.getD (at_ + 3) 0).setWidth 32

/-- store_be32, the four bytes it writes. src/ld/sha256.c:80-85 -/
def storeBe32 (value : Word) : List Byte :=
  [(value >>> 24).setWidth 8, (value >>> 16).setWidth 8, (value >>> 8).setWidth 8, value.setWidth 8]

/-- One turn of the second loop of transform: `w[i]`; `w` holds the words before it. src/ld/sha256.c:92-96 -/
def expand (w : List Word) (i : Nat) : List Word :=
  let s0 := rotr (w.getD (i - 15) 0) 7 ^^^ rotr (w.getD (i - 15) 0) 18 ^^^ (w.getD (i - 15) 0 >>> 3)
  let s1 := rotr (w.getD (i - 2) 0) 17 ^^^ rotr (w.getD (i - 2) 0) 19 ^^^ (w.getD (i - 2) 0 >>> 10)
  w ++ [w.getD (i - 16) 0 + s0 + w.getD (i - 7) 0 + s1]

/-- The array `w` of transform. src/ld/sha256.c:88-96 -/
def schedule (block : List Byte) : List Word :=
  (List.range' 16 48).foldl expand ((List.range 16).map fun i => loadBe32 block (i * 4))

/-- One turn of the third loop of transform. src/ld/sha256.c:100-115 -/
def round (w : List Word) (v : Eight) (i : Nat) : Eight :=
  let s1 := rotr v.e 6 ^^^ rotr v.e 11 ^^^ rotr v.e 25
  let ch := (v.e &&& v.f) ^^^ (~~~v.e &&& v.g)
  let t1 := v.h + s1 + ch + k.getD i 0 + w.getD i 0
  let s0 := rotr v.a 2 ^^^ rotr v.a 13 ^^^ rotr v.a 22
  let maj := (v.a &&& v.b) ^^^ (v.a &&& v.c) ^^^ (v.b &&& v.c)
  let t2 := s0 + maj
  { h := v.g, g := v.f, f := v.e, e := v.d + t1, d := v.c, c := v.b, b := v.a, a := t1 + t2 }

/-- transform, on `ctx->state`. src/ld/sha256.c:87-124 -/
def transform (state : Eight) (block : List Byte) : Eight :=
  let v := (List.range 64).foldl (round (schedule block)) state
  { a := state.a + v.a, b := state.b + v.b, c := state.c + v.c, d := state.d + v.d,
    e := state.e + v.e, f := state.f + v.f, g := state.g + v.g, h := state.h + v.h }

/-- `ld_sha256_t`. src/ld/sha256.h:7-12 -/
structure Ctx where
  state : Eight
  bitCount : BitVec 64
  block : List Byte
  blockLen : Nat
deriving DecidableEq

/-- ld_sha256_init; `block` is what the memory of the context held before. src/ld/sha256.c:126-140 -/
def init (block : List Byte) : Ctx :=
  { state := ⟨0x6a09e667, 0xbb67ae85, 0x3c6ef372, 0xa54ff53a, 0x510e527f, 0x9b05688c, 0x1f83d9ab, 0x5be0cd19⟩
    bitCount := 0, block := block, blockLen := 0 }

/-- `memcpy(dst + at, src, n)`, the destination seen as a list; `src` has at least `n` bytes. -/
def memcpy (dst : List Byte) (at_ : Nat) (src : List Byte) (n : Nat) : List Byte :=
  dst.take at_ ++ src.take n ++ dst.drop (at_ + n)

/-- The bytes of one turn of the loop of ld_sha256_update. src/ld/sha256.c:146-149 -/
def takeSize (ctx : Ctx) (size : Nat) : Nat :=
  let take := 64 - ctx.blockLen
  if take > size then size else take

/-- One turn of the loop of ld_sha256_update, on the context. src/ld/sha256.c:150-157 -/
def turn (ctx : Ctx) (bytes : List Byte) (take : Nat) : Ctx :=
  let ctx := { ctx with block := memcpy ctx.block ctx.blockLen bytes take }
  let ctx := { ctx with blockLen := ctx.blockLen + take }
  if ctx.blockLen = 64 then { ctx with state := transform ctx.state ctx.block, blockLen := 0 } else ctx

/-- The loop of ld_sha256_update: `while (size > 0)`, `size` is the length of `bytes`.  A turn that takes nothing would never end (the
code has that for a full block); the model stops there. src/ld/sha256.c:145-158 -/
def loop (ctx : Ctx) (bytes : List Byte) : Ctx :=
  if h : bytes.length > 0 ∧ takeSize ctx bytes.length > 0 then
    loop (turn ctx bytes (takeSize ctx bytes.length)) (bytes.drop (takeSize ctx bytes.length))
  else ctx
termination_by bytes.length
decreasing_by simp only [List.length_drop]; omega

/-- ld_sha256_update; `size` is the length of `data`. src/ld/sha256.c:142-159 -/
def update (ctx : Ctx) (data : List Byte) : Ctx :=
  loop { ctx with bitCount := ctx.bitCount + BitVec.ofNat 64 data.length * 8 } data

/-- The array `padding`: 128 bytes, 0x80 and zeros. src/ld/sha256.c:163 -/
def padding : List Byte := 0x80 :: List.replicate 127 0

/-- `length[7 - i] = bit_count >> (i * 8)` for `i` from 0 to 7. src/ld/sha256.c:166-169 -/
def lengthBytes (bitCount : BitVec 64) : List Byte :=
  (List.range 8).foldl (fun l i => l.set (7 - i) ((bitCount >>> (i * 8)).setWidth 8)) (List.replicate 8 0)

/-- ld_sha256_final. src/ld/sha256.c:161-174 -/
def final (ctx : Ctx) : List Byte :=
  let bitCount := ctx.bitCount
  let paddingLen := if ctx.blockLen < 56 then 56 - ctx.blockLen else 120 - ctx.blockLen
  let ctx := update ctx (padding.take paddingLen)
  let ctx := update ctx (lengthBytes bitCount)
  ctx.state.words.flatMap storeBe32

/-- ld_sha256. src/ld/sha256.c:176-181 -/
def sha256 (memory : List Byte) (data : List Byte) : List Byte := final (update (init memory) data)

end Nature.Sha
