/-!
# Blowfish, as its designer published it

This file is the specification side of C105.  It does not mention the model.

A state is one list of 1042 words of 32 bits: the 18 words of the P-array, then the four S-boxes
of 256 words.  The definitions follow B. Schneier, "Description of a New Variable-Length Key,
64-Bit Block Cipher (Blowfish)" (1993): sixteen rounds, each of which adds a subkey to the left
half, mixes the left half into the right one and swaps them; and a key schedule that adds the
key, repeated as often as needed, to the P-array and then replaces the 1042 words pair by pair
by the result of enciphering the previous pair.  The variant with a salt is the one of
N. Provos and D. Mazières, "A Future-Adaptable Password Scheme" (1999).
-/

namespace Nature.Blowfish.Spec

abbrev Word := BitVec 32
abbrev Byte := BitVec 8

/-- The words of a state: P-array first. -/
def P (T : List Word) (i : Nat) : Word := T.getD i 0

/-- Entry `j` of S-box `k`. -/
def S (T : List Word) (k j : Nat) : Word := T.getD (18 + 256 * k + j) 0

/-- The round function: the four bytes of the word, the first being the most significant one,
select one word of each S-box. -/
def F (T : List Word) (x : Word) : Word :=
  let n := x.toNat
  ((S T 0 (n / 2 ^ 24) + S T 1 (n / 2 ^ 16 % 256)) ^^^ S T 2 (n / 2 ^ 8 % 256)) + S T 3 (n % 256)

/-- The first `n` rounds under the subkeys `k 0, k 1, …`. -/
def rounds (T : List Word) (k : Nat → Word) : Nat → Word × Word → Word × Word
  | 0, x => x
  | n + 1, x =>
    let (l, r) := rounds T k n x
    let l' := l ^^^ k n
    (F T l' ^^^ r, l')

/-- Sixteen rounds, the last swap undone, and the last two subkeys. -/
def block (T : List Word) (k : Nat → Word) (x : Word × Word) : Word × Word :=
  let (l, r) := rounds T k 16 x
  (r ^^^ k 17, l ^^^ k 16)

/-- Enciphering takes the subkeys in order, … -/
def encipher (T : List Word) : Word × Word → Word × Word := block T (P T)

/-- … deciphering in the opposite order. -/
def decipher (T : List Word) : Word × Word → Word × Word := block T (fun i => P T (17 - i))

/-- Four bytes as a word, most significant byte first. -/
def word (a b c d : Byte) : Word :=
  BitVec.ofNat 32 (a.toNat * 2 ^ 24 + b.toNat * 2 ^ 16 + c.toNat * 2 ^ 8 + d.toNat)

/-- The four bytes of a word. -/
def bytes (w : Word) : List Byte :=
  [BitVec.ofNat 8 (w.toNat / 2 ^ 24), BitVec.ofNat 8 (w.toNat / 2 ^ 16),
   BitVec.ofNat 8 (w.toNat / 2 ^ 8), BitVec.ofNat 8 w.toNat]

/-- Word `i` of a string of bytes that is repeated without end. -/
def cyclic (key : List Byte) (i : Nat) : Word :=
  let b := fun m => key.getD (m % key.length) 0
  word (b (4 * i)) (b (4 * i + 1)) (b (4 * i + 2)) (b (4 * i + 3))

/-- Adding the key to the P-array. -/
def addKey (T : List Word) (key : List Byte) : List Word :=
  (List.range 1042).map fun i => if i < 18 then P T i ^^^ cyclic key i else T.getD i 0

/-- The first `n` of the 521 replacements: the previous pair, to which the next two words of the
salt are added, is enciphered under the current state; the result takes the next two places. -/
def replace (T : List Word) (salt : Nat → Word) : Nat → List Word × Word × Word
  | 0 => (T, 0, 0)
  | n + 1 =>
    let (U, l, r) := replace T salt n
    let (l', r') := encipher U (l ^^^ salt (2 * n), r ^^^ salt (2 * n + 1))
    ((U.set (2 * n) l').set (2 * n + 1) r', l', r')

/-- The key schedule of Blowfish. -/
def expand (T : List Word) (key : List Byte) : List Word :=
  (replace (addKey T key) (fun _ => 0) 521).1

/-- The key schedule with a salt. -/
def expandSalted (T : List Word) (key salt : List Byte) : List Word :=
  (replace (addKey T key) (cyclic salt) 521).1

end Nature.Blowfish.Spec
