import Verif.Blowfish.Model

/-!
# Model of the password hashing of the standard library

`/repo/std/crypto/bcrypt.n`.  Vectors are lists; an index out of range throws (`Err.range`).
The random numbers of libc are a parameter: the numbers that `rand` gives after `srand(seed)`.
-/

namespace Nature.Bcrypt

open Nature.Blowfish (W B Cipher Tables Made rd wr)

/-- The errors, bcrypt.n:38-43, the one of line 182, and an index out of range. -/
inductive Err where
  | tooLong | invalidCost | tooShort | invalidPrefix | tooNew | notVerify | cipher | range
  deriving DecidableEq, Repr

/-- An indexed read. -/
def at' {α : Type} (v : List α) (i : Nat) : Except Err α :=
  match rd v i with
  | some x => .ok x
  | none => .error .range

/-- `ALPHABET`, bcrypt.n:24. -/
def alphabet : List B :=
  "./ABCDEFGHIJKLMNOPQRSTUVWXYZabcdefghijklmnopqrstuvwxyz0123456789".toList.map
    fun c => BitVec.ofNat 8 c.toNat

/-- The body of the loop of `base64_encode`, bcrypt.n:60-84: what is pushed for the group that
starts at `i`. -/
def encodeGroup (src : List B) (i : Nat) : Except Err (List B) := do
  let a ← at' src i
  let val : W := a.setWidth 32 <<< 16
  let (val, padding) ←
    if i + 1 < src.length then do
      let b ← at' src (i + 1)
      .ok (val ||| (b.setWidth 32 <<< 8), 0)
    else .ok (val, 1)
  let (val, padding) ←
    if i + 2 < src.length then do
      let c ← at' src (i + 2)
      .ok (val ||| c.setWidth 32, padding)
    else .ok (val, padding + 1)
  let c0 ← at' alphabet ((val >>> 18) &&& 0x3F#32).toNat
  let c1 ← at' alphabet ((val >>> 12) &&& 0x3F#32).toNat
  let t2 ← if padding < 2 then do
      let c ← at' alphabet ((val >>> 6) &&& 0x3F#32).toNat
      .ok [c]
    else .ok []
  let t3 ← if padding < 1 then do
      let c ← at' alphabet (val &&& 0x3F#32).toNat
      .ok [c]
    else .ok []
  .ok ([c0, c1] ++ t2 ++ t3)

/-- The loop of `base64_encode`, `for int i = 0; i < src_len; i += 3`, bcrypt.n:59-85. -/
def encodeFrom (src : List B) (i : Nat) (result : List B) : Except Err (List B) :=
  if i < src.length then
    match encodeGroup src i with
    | .ok g => encodeFrom src (i + 3) (result ++ g)
    | .error e => .error e
  else .ok result
termination_by src.length - i

/-- `base64_encode`, bcrypt.n:55-88. -/
def encode (src : List B) : Except Err (List B) := encodeFrom src 0 []

/-- `'='[0]`. -/
def eqChar : B := 61

/-- `char_to_value`, bcrypt.n:93-100; `none` is -1. -/
def charToValue (c : B) : Option Nat := alphabet.findIdx? (fun x => x == c)

/-- One character, bcrypt.n:120-127. -/
def decodeChar (c : B) : Except Err Nat :=
  if c = eqChar then .ok 0
  else match charToValue c with
    | some v => .ok v
    | none => .error .invalidPrefix

/-- The body of the loop of `base64_decode`, bcrypt.n:116-141. -/
def decodeGroup (src : List B) (i : Nat) : Except Err (List B) := do
  let c0 ← at' src i
  let v0 ← decodeChar c0
  let c1 ← at' src (i + 1)
  let v1 ← decodeChar c1
  let c2 ← at' src (i + 2)
  let v2 ← decodeChar c2
  let c3 ← at' src (i + 3)
  let v3 ← decodeChar c3
  let combined : W := (BitVec.ofNat 32 v0 <<< 18) ||| (BitVec.ofNat 32 v1 <<< 12) |||
    (BitVec.ofNat 32 v2 <<< 6) ||| BitVec.ofNat 32 v3
  .ok ([(combined >>> 16).setWidth 8] ++
    (if c2 ≠ eqChar then [(combined >>> 8).setWidth 8] else []) ++
    (if c3 ≠ eqChar then [combined.setWidth 8] else []))

/-- The loop of `base64_decode`, bcrypt.n:115-142. -/
def decodeFrom (src : List B) (i : Nat) (result : List B) : Except Err (List B) :=
  if i < src.length then
    match decodeGroup src i with
    | .ok g => decodeFrom src (i + 4) (result ++ g)
    | .error e => .error e
  else .ok result
termination_by src.length - i

/-- The copy of the argument, filled with `=` up to a multiple of four, bcrypt.n:103-110.
Simplification: the loop is replaced by its result. -/
def pad (src : List B) : List B := src ++ List.replicate ((4 - src.length % 4) % 4) eqChar

/-- `base64_decode`, bcrypt.n:91-145. -/
def decode (src : List B) : Except Err (List B) := decodeFrom (pad src) 0 []

/-- `check_cost`, bcrypt.n:148-152. -/
def checkCost (cost : Int) : Except Err Unit :=
  if cost < 4 ∨ cost > 31 then .error .invalidCost else .ok ()

/-- `generate_salt`, bcrypt.n:155-167. -/
def generateSalt (rand : Nat → Nat → Nat) (now : Nat) : List B :=
  (List.range 16).map fun i => BitVec.ofNat 8 (rand now i % 256)

/-- The rounds of the expensive key expansion, bcrypt.n:195-199. -/
def costRounds (ckey csalt : List B) : Nat → Cipher → Option Cipher
  | 0, c => some c
  | n + 1, c =>
    match Blowfish.expandKey ckey c with
    | none => none
    | some c =>
      match Blowfish.expandKey csalt c with
      | none => none
      | some c => costRounds ckey csalt n c

/-- `expensive_blowfish_setup`, bcrypt.n:169-202. -/
def setup (t : Tables) (key : List B) (cost : Nat) (salt : List B) : Except Err Cipher := do
  let csalt ← decode salt
  let ckey := key ++ [0]
  match Blowfish.newSaltedCipher t ckey csalt with
  | .invalidKeySize => .error .cipher
  | .thrown => .error .range
  | .success c =>
    match costRounds ckey csalt (1#64 <<< cost).toNat c with
    | some c => .ok c
    | none => .error .range

/-- `MAGIC_CIPHER_DATA`, bcrypt.n:28-35. -/
def magic : List B :=
  [0x4f, 0x72, 0x70, 0x68, 0x65, 0x61, 0x6e, 0x42, 0x65, 0x68, 0x6f, 0x6c,
   0x64, 0x65, 0x72, 0x53, 0x63, 0x72, 0x79, 0x44, 0x6f, 0x75, 0x62, 0x74]

/-- `for k < 8: block_in.push(cipher_data[i + k])`, bcrypt.n:219-221. -/
def readBlock (data : List B) (i : Nat) : Option (List B) := do
  let b0 ← rd data i
  let b1 ← rd data (i + 1)
  let b2 ← rd data (i + 2)
  let b3 ← rd data (i + 3)
  let b4 ← rd data (i + 4)
  let b5 ← rd data (i + 5)
  let b6 ← rd data (i + 6)
  let b7 ← rd data (i + 7)
  some [b0, b1, b2, b3, b4, b5, b6, b7]

/-- `for k < 8: cipher_data[i + k] = block_out[k]`, bcrypt.n:225-227. -/
def writeBlock (data : List B) (i : Nat) (out : List B) : Option (List B) :=
  (List.range 8).foldlM (fun d k => do
    let x ← rd out k
    wr d (i + k) x) data

/-- The body of the two loops, bcrypt.n:216-227. -/
def cryptStep (c : Cipher) (i : Nat) (data : List B) : Option (List B) := do
  let blockIn ← readBlock data i
  let out ← Blowfish.encrypt c [0, 0, 0, 0, 0, 0, 0, 0] blockIn
  writeBlock data i out

/-- The inner loop: `n` encryptions of the block at `i`, bcrypt.n:215-228. -/
def cryptBlock (c : Cipher) (i : Nat) : Nat → List B → Option (List B)
  | 0, data => some data
  | n + 1, data =>
    match cryptStep c i data with
    | some data => cryptBlock c i n data
    | none => none

/-- The outer loop, `i = 0, 8, 16`, bcrypt.n:214-229. -/
def cryptAll (c : Cipher) (data : List B) : Option (List B) := do
  let data ← cryptBlock c 0 64 data
  let data ← cryptBlock c 8 64 data
  cryptBlock c 16 64 data

/-- `bcrypt`, bcrypt.n:205-238. -/
def bcrypt (t : Tables) (password : List B) (cost : Int) (salt : List B) :
    Except Err (List B) := do
  let c ← setup t password cost.toNat salt
  match cryptAll c magic with
  | some data => encode (data.take 23)
  | none => .error .range

/-- `bcrypt_hash_t`, bcrypt.n:46-52. -/
structure Info where
  hash : List B
  salt : List B
  cost : Int
  major : B
  minor : B

/-- `new_from_password`, bcrypt.n:241-267. -/
def newFromPassword (t : Tables) (rand : Nat → Nat → Nat) (now : Nat) (password : List B)
    (cost : Int) : Except Err Info :=
  if password.length > 72 then .error .tooLong
  else do
    let cost := if cost < 4 then 10 else cost
    checkCost cost
    let salt ← encode (generateSalt rand now)
    let hash ← bcrypt t password cost salt
    .ok { hash := hash, salt := salt, cost := cost, major := 50, minor := 97 }

/-- One digit of the cost, bcrypt.n:313-319. -/
def costDigit (h : List B) (pos : Nat) (cost : Int) : Except Err Int := do
  let c ← at' h pos
  if c.toNat ≥ 48 ∧ c.toNat ≤ 57 then .ok (cost * 10 + (c - 48#8).toNat)
  else .error .invalidPrefix

/-- The rest of `new_from_hash` from the cost on, bcrypt.n:307-345. -/
def parseRest (h : List B) (major minor : B) (pos : Nat) : Except Err Info :=
  if pos + 2 ≥ h.length then .error .tooShort
  else do
    let cost ← costDigit h pos 0
    let cost ← costDigit h (pos + 1) cost
    checkCost cost
    let d ← at' h (pos + 2)
    if d ≠ 36 then .error .invalidPrefix
    else if pos + 3 + 22 > h.length then .error .tooShort
    else .ok { hash := h.drop (pos + 3 + 22), salt := (h.drop (pos + 3)).take 22, cost := cost,
               major := major, minor := minor }

/-- `new_from_hash`, bcrypt.n:270-348. -/
def newFromHash (h : List B) : Except Err Info :=
  if h.length < 59 then .error .tooShort
  else do
    let d ← at' h 0
    if d ≠ 36 then .error .invalidPrefix
    else do
      let major ← at' h 1
      if major.toNat > 50 then .error .tooNew
      else do
        let x ← at' h 2
        let (minor, pos) := if x ≠ 36 then (x, 3) else (0, 2)
        let d ← at' h pos
        if d ≠ 36 then .error .invalidPrefix
        else parseRest h major minor (pos + 1)

/-- `hash_to_string`, bcrypt.n:351-378. -/
def hashToString (i : Info) : List B :=
  [36, i.major] ++ (if i.minor ≠ 0 then [i.minor] else []) ++ [36] ++
    [BitVec.ofInt 8 (48 + i.cost / 10), BitVec.ofInt 8 (48 + i.cost % 10)] ++ [36] ++
    i.salt ++ i.hash

/-- `constant_time_compare`, bcrypt.n:381-392. -/
def compare (a b : List B) : Bool :=
  if a.length ≠ b.length then false
  else (List.zipWith (· ^^^ ·) a b).foldl (· ||| ·) 0 == 0

/-- `hash`, bcrypt.n:397-400. -/
def hash (t : Tables) (rand : Nat → Nat → Nat) (now : Nat) (password : List B) (cost : Int) :
    Except Err (List B) := do
  let i ← newFromPassword t rand now password cost
  .ok (hashToString i)

/-- `verify`, bcrypt.n:403-422. -/
def verify (t : Tables) (hashed password : List B) : Except Err Unit := do
  let i ← newFromHash hashed
  let other ← bcrypt t password i.cost i.salt
  if !compare (hashToString i) (hashToString { i with hash := other }) then .error .notVerify
  else .ok ()

/-- `cost`, bcrypt.n:425-428. -/
def cost (hashed : List B) : Except Err Int := do
  let i ← newFromHash hashed
  .ok i.cost

end Nature.Bcrypt
