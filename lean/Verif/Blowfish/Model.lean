/-!
# Model of the block cipher of the standard library

`/repo/std/crypto/blowfish.n`.  A vector is a list; reading or writing outside it throws, which
is `none` here.  A cipher holds five vectors, which the functions change through the pointer or
through the vector handles they are given; here the changed cipher is returned.  The tables of
initial values (lines 22-213) are parameters: nothing below depends on what they are.
-/

namespace Nature.Blowfish

abbrev W := BitVec 32
abbrev B := BitVec 8

/-- `cipher_t`, blowfish.n:13-19. -/
structure Cipher where
  p : List W
  s0 : List W
  s1 : List W
  s2 : List W
  s3 : List W
  deriving DecidableEq, Repr

/-- An indexed read of a vector, which throws out of range. -/
def rd {α : Type} (v : List α) (i : Nat) : Option α := v[i]?

/-- An indexed write to a vector, which throws out of range. -/
def wr {α : Type} (v : List α) (i : Nat) (x : α) : Option (List α) :=
  if i < v.length then some (v.set i x) else none

/-- `((s0[(x >> 24) & 0xFF] + s1[(x >> 16) & 0xFF]) ^ s2[(x >> 8) & 0xFF]) + s3[x & 0xFF]`,
the expression in every round, e.g. blowfish.n:252-253. -/
def mix (c : Cipher) (x : W) : Option W := do
  let a ← rd c.s0 ((x >>> 24) &&& 0xFF#32).toNat
  let b ← rd c.s1 ((x >>> 16) &&& 0xFF#32).toNat
  let d ← rd c.s2 ((x >>> 8) &&& 0xFF#32).toNat
  let e ← rd c.s3 (x &&& 0xFF#32).toNat
  some (((a + b) ^^^ d) + e)

/-- `y ^= mix(x) ^ p[i]`, one round; `^` binds weaker than `+`, parser.h:20-25. -/
def half (c : Cipher) (x y : W) (i : Nat) : Option W := do
  let f ← mix c x
  let k ← rd c.p i
  some (y ^^^ (f ^^^ k))

/-- `encrypt_block`, blowfish.n:247-288. -/
def encryptBlock (l r : W) (c : Cipher) : Option (W × W) := do
  let k ← rd c.p 0
  let xl := l ^^^ k
  let xr ← half c xl r 1
  let xl ← half c xr xl 2
  let xr ← half c xl xr 3
  let xl ← half c xr xl 4
  let xr ← half c xl xr 5
  let xl ← half c xr xl 6
  let xr ← half c xl xr 7
  let xl ← half c xr xl 8
  let xr ← half c xl xr 9
  let xl ← half c xr xl 10
  let xr ← half c xl xr 11
  let xl ← half c xr xl 12
  let xr ← half c xl xr 13
  let xl ← half c xr xl 14
  let xr ← half c xl xr 15
  let xl ← half c xr xl 16
  let k' ← rd c.p 17
  some (xr ^^^ k', xl)

/-- `decrypt_block`, blowfish.n:291-332. -/
def decryptBlock (l r : W) (c : Cipher) : Option (W × W) := do
  let k ← rd c.p 17
  let xl := l ^^^ k
  let xr ← half c xl r 16
  let xl ← half c xr xl 15
  let xr ← half c xl xr 14
  let xl ← half c xr xl 13
  let xr ← half c xl xr 12
  let xl ← half c xr xl 11
  let xr ← half c xl xr 10
  let xl ← half c xr xl 9
  let xr ← half c xl xr 8
  let xl ← half c xr xl 7
  let xr ← half c xl xr 6
  let xl ← half c xr xl 5
  let xr ← half c xl xr 4
  let xl ← half c xr xl 3
  let xr ← half c xl xr 2
  let xl ← half c xr xl 1
  let k' ← rd c.p 0
  some (xr ^^^ k', xl)

/-- `(src[i] << 24) | (src[i+1] << 16) | (src[i+2] << 8) | src[i+3]`, blowfish.n:362-365. -/
def load (src : List B) (i : Nat) : Option W := do
  let a ← rd src i
  let b ← rd src (i + 1)
  let c ← rd src (i + 2)
  let d ← rd src (i + 3)
  some ((a.setWidth 32 <<< 24) ||| (b.setWidth 32 <<< 16) ||| (c.setWidth 32 <<< 8) |||
    d.setWidth 32)

/-- `dst[i] = (w >> 24) as u8 … dst[i+3] = w as u8`, blowfish.n:369-376. -/
def store (dst : List B) (i : Nat) (w : W) : Option (List B) := do
  let dst ← wr dst i ((w >>> 24).setWidth 8)
  let dst ← wr dst (i + 1) ((w >>> 16).setWidth 8)
  let dst ← wr dst (i + 2) ((w >>> 8).setWidth 8)
  wr dst (i + 3) (w.setWidth 8)

/-- `encrypt`, blowfish.n:361-377. -/
def encrypt (c : Cipher) (dst src : List B) : Option (List B) := do
  let l ← load src 0
  let r ← load src 4
  let (l, r) ← encryptBlock l r c
  let dst ← store dst 0 l
  store dst 4 r

/-- `decrypt`, blowfish.n:380-396. -/
def decrypt (c : Cipher) (dst src : List B) : Option (List B) := do
  let l ← load src 0
  let r ← load src 4
  let (l, r) ← decryptBlock l r c
  let dst ← store dst 0 l
  store dst 4 r

/-- One step of the loop of `get_next_word`, blowfish.n:234-240, and of the inner loop of
`expand_key`, blowfish.n:405-411. -/
def nextByte (b : List B) (len : Nat) (s : W × Nat) : Option (W × Nat) := do
  let x ← rd b s.2
  let j := s.2 + 1
  some ((s.1 <<< 8) ||| x.setWidth 32, if j ≥ len then 0 else j)

/-- `get_next_word`, blowfish.n:230-244: the word and the new position. -/
def getNextWord (b : List B) (len pos : Nat) : Option (W × Nat) := do
  let s ← nextByte b len (0, pos)
  let s ← nextByte b len s
  let s ← nextByte b len s
  nextByte b len s

/-- `cipher.p[i] ^= …` for `i` below 18, with the words of the key one after the other,
blowfish.n:403-413 and 477-479. -/
def xorKey (key : List B) (c : Cipher) : Option Cipher := do
  let s ← (List.range 18).foldlM (fun (s : List W × Nat) i => do
    let (d, j) ← getNextWord key key.length s.2
    let x ← rd s.1 i
    let p ← wr s.1 i (x ^^^ d)
    some (p, j)) (c.p, 0)
  some { c with p := s.1 }

/-- Writes to the five vectors of a cipher. -/
def putP (c : Cipher) (i : Nat) (w : W) : Option Cipher := do
  let v ← wr c.p i w
  some { c with p := v }
/-- See `putP`. -/
def putS0 (c : Cipher) (i : Nat) (w : W) : Option Cipher := do
  let v ← wr c.s0 i w
  some { c with s0 := v }
/-- See `putP`. -/
def putS1 (c : Cipher) (i : Nat) (w : W) : Option Cipher := do
  let v ← wr c.s1 i w
  some { c with s1 := v }
/-- See `putP`. -/
def putS2 (c : Cipher) (i : Nat) (w : W) : Option Cipher := do
  let v ← wr c.s2 i w
  some { c with s2 := v }
/-- See `putP`. -/
def putS3 (c : Cipher) (i : Nat) (w : W) : Option Cipher := do
  let v ← wr c.s3 i w
  some { c with s3 := v }

/-- The variables of the loops: the cipher, `l`, `r`, and the position `j` in the salt. -/
structure Loop where
  c : Cipher
  l : W
  r : W
  j : Nat

/-- `l ^= get_next_word(salt …); r ^= get_next_word(salt …)`, blowfish.n:487-488; nothing in
`expand_key`, which is the case `none`. -/
def addSalt (salt : Option (List B)) (s : Loop) : Option Loop :=
  match salt with
  | none => some s
  | some b => do
    let (x, j) ← getNextWord b b.length s.j
    let (y, j) ← getNextWord b b.length j
    some { s with l := s.l ^^^ x, r := s.r ^^^ y, j := j }

/-- The body of a loop that replaces the `n` words of one vector, blowfish.n:419-425 and
486-494. -/
def refillStep (salt : Option (List B)) (n : Nat) (put : Cipher → Nat → W → Option Cipher)
    (s : Loop) (i : Nat) : Option Loop :=
  if i % 2 = 0 then do
    let s ← addSalt salt s
    let (l, r) ← encryptBlock s.l s.r s.c
    let c ← put s.c i l
    let c ← if i + 1 < n then put c (i + 1) r else some c
    some { c := c, l := l, r := r, j := s.j }
  else some s

/-- One of the five loops, blowfish.n:416-467 and 482-544. -/
def refill (salt : Option (List B)) (n : Nat) (put : Cipher → Nat → W → Option Cipher)
    (s : Loop) : Option Loop :=
  (List.range n).foldlM (refillStep salt n put) s

/-- The five loops one after the other. -/
def refillAll (salt : Option (List B)) (c : Cipher) : Option Cipher := do
  let s ← refill salt 18 putP { c := c, l := 0, r := 0, j := 0 }
  let s ← refill salt 256 putS0 s
  let s ← refill salt 256 putS1 s
  let s ← refill salt 256 putS2 s
  let s ← refill salt 256 putS3 s
  some s.c

/-- `expand_key`, blowfish.n:399-468. -/
def expandKey (key : List B) (c : Cipher) : Option Cipher := do
  let c ← xorKey key c
  refillAll none c

/-- `expand_key_with_salt`, blowfish.n:471-545. -/
def expandKeyWithSalt (key salt : List B) (c : Cipher) : Option Cipher := do
  let c ← xorKey key c
  refillAll (some salt) c

/-- The tables `initial_p`, `initial_s0`, …, blowfish.n:22-213. -/
structure Tables where
  p : List W
  s0 : List W
  s1 : List W
  s2 : List W
  s3 : List W

/-- `init_cipher`, blowfish.n:216-227, for vectors of 18 and 256 words, which is what every
caller makes (bcrypt.n:165-171). -/
def initCipher (t : Tables) : Cipher :=
  { p := t.p.take 18, s0 := t.s0.take 256, s1 := t.s1.take 256, s2 := t.s2.take 256,
    s3 := t.s3.take 256 }

/-- What the two functions that make a cipher return. -/
inductive Made where
  | success (c : Cipher)
  | invalidKeySize
  | thrown
  deriving DecidableEq, Repr

/-- `new_cipher`, blowfish.n:335-343. -/
def newCipher (t : Tables) (key : List B) : Made :=
  if key.length < 1 ∨ key.length > 56 then .invalidKeySize
  else match expandKey key (initCipher t) with
    | some c => .success c
    | none => .thrown

/-- `new_salted_cipher`, blowfish.n:346-358. -/
def newSaltedCipher (t : Tables) (key salt : List B) : Made :=
  if salt.length = 0 then newCipher t key
  else if key.length < 1 then .invalidKeySize
  else match expandKeyWithSalt key salt (initCipher t) with
    | some c => .success c
    | none => .thrown

end Nature.Blowfish
