/-!
# What the hash function of FIPS 180-4 (SHA-256) is

A specification written from the standard, without the code of the linker.  The constants are not listed here: they are described, as
in sections 4.2.2 and 5.3.3, by the roots of the first primes.
-/

namespace Nature.Sha.Spec

abbrev Byte := BitVec 8

abbrev Word := BitVec 32

/-- Eight words: a hash value `H0 .. H7` or the working variables `a .. h` of section 6.2. -/
structure Eight where
  a : Word
  b : Word
  c : Word
  d : Word
  e : Word
  f : Word
  g : Word
  h : Word
deriving DecidableEq, Repr

/-- The words of a hash value in order. -/
def Eight.words (v : Eight) : List Word := [v.a, v.b, v.c, v.d, v.e, v.f, v.g, v.h]

/-! ### Section 4.1.2 -/

def Ch (x y z : Word) : Word := (x &&& y) ^^^ (~~~x &&& z)

def Maj (x y z : Word) : Word := (x &&& y) ^^^ (x &&& z) ^^^ (y &&& z)

def bigSigma0 (x : Word) : Word := x.rotateRight 2 ^^^ x.rotateRight 13 ^^^ x.rotateRight 22

def bigSigma1 (x : Word) : Word := x.rotateRight 6 ^^^ x.rotateRight 11 ^^^ x.rotateRight 25

def smallSigma0 (x : Word) : Word := x.rotateRight 7 ^^^ x.rotateRight 18 ^^^ (x >>> 3)

def smallSigma1 (x : Word) : Word := x.rotateRight 17 ^^^ x.rotateRight 19 ^^^ (x >>> 10)

/-! ### Constants -/

/-- `p` is a prime number. -/
def IsPrime (p : Nat) : Prop := 2 ≤ p ∧ ∀ d, d ∣ p → d = 1 ∨ d = p

/-- The first primes in rising order: the list holds primes only, and each prime up to its end. -/
def FirstPrimes (ps : List Nat) : Prop := ps.Pairwise (· < ·) ∧ ∀ n, n ∈ ps ↔ IsPrime n ∧ ∃ q ∈ ps, n ≤ q

/-- `w` holds the first thirty-two bits of the fractional part of the square root of `p`: `⌊√p · 2^32⌋` ends in the bits of `w`. -/
def SqrtBits (p : Nat) (w : Word) : Prop := ∃ n, (n * 2 ^ 32 + w.toNat) ^ 2 ≤ p * 2 ^ 64 ∧ p * 2 ^ 64 < (n * 2 ^ 32 + w.toNat + 1) ^ 2

/-- The same for the cube root. -/
def CbrtBits (p : Nat) (w : Word) : Prop := ∃ n, (n * 2 ^ 32 + w.toNat) ^ 3 ≤ p * 2 ^ 96 ∧ p * 2 ^ 96 < (n * 2 ^ 32 + w.toNat + 1) ^ 3

/-- The constants of the standard: `K` has the cube roots of the first sixty-four primes, `H0` the square roots of the first eight. -/
def Constants (K : List Word) (H0 : Eight) : Prop :=
  ∃ ps, FirstPrimes ps ∧ ps.length = 64 ∧ K.length = 64 ∧
    (∀ i, i < 64 → CbrtBits (ps.getD i 0) (K.getD i 0)) ∧ (∀ i, i < 8 → SqrtBits (ps.getD i 0) (H0.words.getD i 0))

/-! ### Padding (5.1.1) -/

/-- A 64-bit number as eight bytes, the most significant one first. -/
def be64 (n : BitVec 64) : List Byte := (List.range 8).map fun i => n.extractLsb' (8 * (7 - i)) 8

/-- `z` is the number of zero bytes behind the byte `10000000` (the bits `1`, and zeros): the least one for which eight bytes are left up
to a multiple of sixty-four. -/
def ZeroBytes (len z : Nat) : Prop := (len + 1 + z + 8) % 64 = 0 ∧ ∀ y, (len + 1 + y + 8) % 64 = 0 → z ≤ y

/-- `p` is the padded message. -/
def Padded (m p : List Byte) : Prop :=
  ∃ z, ZeroBytes m.length z ∧ p = m ++ [0x80#8] ++ List.replicate z 0#8 ++ be64 (BitVec.ofNat 64 (8 * m.length))

/-! ### Section 6.2.2 -/

/-- Word `t` of block `i` of a message: four bytes, the first one on top. -/
def msgWord (m : List Byte) (i t : Nat) : Word :=
  m.getD (64 * i + 4 * t) 0 ++ m.getD (64 * i + 4 * t + 1) 0 ++ m.getD (64 * i + 4 * t + 2) 0 ++ m.getD (64 * i + 4 * t + 3) 0

/-- Step 1: the message schedule. -/
def W (m : List Byte) (i : Nat) (t : Nat) : Word :=
  if h : t < 16 then msgWord m i t
  else smallSigma1 (W m i (t - 2)) + W m i (t - 7) + smallSigma0 (W m i (t - 15)) + W m i (t - 16)
termination_by t

/-- Steps 2 and 3: the working variables before round `t`. -/
def vars (K : List Word) (w : Nat → Word) (v : Eight) : Nat → Eight
  | 0 => v
  | t + 1 =>
    let x := vars K w v t
    let t1 := x.h + bigSigma1 x.e + Ch x.e x.f x.g + K.getD t 0 + w t
    let t2 := bigSigma0 x.a + Maj x.a x.b x.c
    ⟨t1 + t2, x.a, x.b, x.c, x.d + t1, x.e, x.f, x.g⟩

def Eight.plus (x y : Eight) : Eight := ⟨x.a + y.a, x.b + y.b, x.c + y.c, x.d + y.d, x.e + y.e, x.f + y.f, x.g + y.g, x.h + y.h⟩

/-- The hash value after `i` blocks. -/
def hashAfter (K : List Word) (H0 : Eight) (m : List Byte) : Nat → Eight
  | 0 => H0
  | i + 1 => (vars K (W m i) (hashAfter K H0 m i) 64).plus (hashAfter K H0 m i)

/-- A word as four bytes, the most significant one first. -/
def be32 (n : Word) : List Byte := [n.extractLsb' 24 8, n.extractLsb' 16 8, n.extractLsb' 8 8, n.extractLsb' 0 8]

/-- `d` is the message digest of `m`. -/
def Digest (m d : List Byte) : Prop :=
  ∃ K H0 p, Constants K H0 ∧ Padded m p ∧ d = (hashAfter K H0 p (p.length / 64)).words.flatMap be32

end Nature.Sha.Spec
