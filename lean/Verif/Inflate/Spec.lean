import Verif.Common

/-!
# The zlib format

RFC 1950 (zlib) and RFC 1951 (DEFLATE), as relations between the bits at some place of the input, what they say, and the bits behind them.
-/

namespace Nature.Inflate.Spec

abbrev Byte := BitVec 8

/-- The bits of bytes, the least significant bit of each byte first (RFC 1951, 3.1.1). -/
def bitsOf (bs : List Byte) : List Bool := bs.flatMap fun b => (List.range 8).map fun i => b.getLsbD i

/-- The number in bits, the least significant bit first. -/
def number : List Bool → Nat
  | [] => 0
  | b :: bs => b.toNat + 2 * number bs

/-- The next `n` bits are the number `v`. -/
def Bits (n : Nat) (b : List Bool) (v : Nat) (b' : List Bool) : Prop := ∃ bs, bs.length = n ∧ b = bs ++ b' ∧ v = number bs

/-! ### Huffman codes (RFC 1951, 3.2.2) -/

/-- The codes of `l` bits. -/
def count (lens : List Nat) (l : Nat) : Nat := if l = 0 then 0 else lens.count l

/-- The smallest code of `l` bits. -/
def firstCode (lens : List Nat) : Nat → Nat
  | 0 => 0
  | l + 1 => (firstCode lens l + count lens l) * 2

/-- The code of a symbol: codes of one length are given to the symbols in their order. -/
def code (lens : List Nat) (s l : Nat) : Nat := firstCode lens l + (lens.take s).count l

/-- Codes are written from the most significant bit on (RFC 1951, 3.1.1). -/
def codeBits : Nat → Nat → List Bool
  | 0, _ => []
  | l + 1, c => codeBits l (c / 2) ++ [c % 2 == 1]

/-- The next bits are the code of symbol `s`. -/
def Symbol (lens : List Nat) (b : List Bool) (s : Nat) (b' : List Bool) : Prop :=
  ∃ l, lens[s]? = some l ∧ l ≠ 0 ∧ b = codeBits l (code lens s l) ++ b'

/-- The share of all words that begin with a code of `l` bits, in units of 2^-n. -/
def weight (n l : Nat) : Nat := if l = 0 then 0 else 2 ^ (n - l)

/-- Lengths of codes of at most `n` bits: every word begins with exactly one code. -/
def Complete (n : Nat) (lens : List Nat) : Prop := (∀ l, l ∈ lens → l ≤ n) ∧ (lens.map (weight n)).sum = 2 ^ n

/-- One symbol has a code, of one bit. -/
def Single (lens : List Nat) : Prop := lens.count 1 = 1 ∧ ∀ l, l ∈ lens → l = 0 ∨ l = 1

/-- No symbol has a code. -/
def NoCodes (lens : List Nat) : Prop := ∀ l, l ∈ lens → l = 0

/-- Lengths for lengths of codes. -/
def LengthCodes (lens : List Nat) : Prop := Complete 7 lens ∨ NoCodes lens

/-- Lengths for literals and lengths: the end of a block has a code. -/
def LiteralCodes (lens : List Nat) : Prop := (∃ l, lens[256]? = some l ∧ l ≠ 0) ∧ (Complete 15 lens ∨ Single lens)

/-- Lengths for distances. -/
def DistanceCodes (lens : List Nat) : Prop := Complete 15 lens ∨ Single lens ∨ NoCodes lens

/-- RFC 1951, 3.2.6. -/
def fixedLiteral (s : Nat) : Nat := if s ≤ 143 then 8 else if s ≤ 255 then 9 else if s ≤ 279 then 7 else 8

/-! ### Codes for lengths of codes (RFC 1951, 3.2.7) -/

/-- The order in which their lengths come. -/
def order : List Nat := [16, 17, 18, 0, 8, 7, 9, 6, 10, 5, 11, 4, 12, 3, 13, 2, 14, 1, 15]

/-- `n` numbers of `k` bits. -/
inductive Numbers (k : Nat) : Nat → List Bool → List Nat → List Bool → Prop
  | nil {b} : Numbers k 0 b [] b
  | cons {n b v b1 vs b2} : Bits k b v b1 → Numbers k n b1 vs b2 → Numbers k (n + 1) b (v :: vs) b2

/-- Lengths of codes up to the number `total`, behind those that have been read. -/
inductive Runs (c : List Nat) (total : Nat) : List Nat → List Bool → List Nat → List Bool → Prop
  | done {ls b} : ls.length = total → Runs c total ls b ls b
  | length {ls b s b1 ls' b'} : ls.length < total → Symbol c b s b1 → s ≤ 15 → Runs c total (ls ++ [s]) b1 ls' b' → Runs c total ls b ls' b'
  | repeated {ls l b b1 n b2 ls' b'} : ls.length < total → Symbol c b 16 b1 → ls.getLast? = some l → Bits 2 b1 n b2 →
      ls.length + (n + 3) ≤ total → Runs c total (ls ++ List.replicate (n + 3) l) b2 ls' b' → Runs c total ls b ls' b'
  | zeros {ls b b1 n b2 ls' b'} : ls.length < total → Symbol c b 17 b1 → Bits 3 b1 n b2 → ls.length + (n + 3) ≤ total →
      Runs c total (ls ++ List.replicate (n + 3) 0) b2 ls' b' → Runs c total ls b ls' b'
  | manyZeros {ls b b1 n b2 ls' b'} : ls.length < total → Symbol c b 18 b1 → Bits 7 b1 n b2 → ls.length + (n + 11) ≤ total →
      Runs c total (ls ++ List.replicate (n + 11) 0) b2 ls' b' → Runs c total ls b ls' b'

/-- The header of a block with codes of its own: the lengths for literals and for distances. -/
def Header (b : List Bool) (lit dist : List Nat) (b' : List Bool) : Prop :=
  ∃ hlit b1 hdist b2 hclen b3 vs b4 c, Bits 5 b hlit b1 ∧ Bits 5 b1 hdist b2 ∧ Bits 4 b2 hclen b3 ∧ hlit + 257 ≤ 286 ∧ hdist + 1 ≤ 30 ∧
    Numbers 3 (hclen + 4) b3 vs b4 ∧
    -- lengths that are not there are zero
    c.length = 19 ∧ (∀ (i j : Nat), order[i]? = some j → c[j]? = some (vs.getD i 0)) ∧ LengthCodes c ∧
    Runs c (lit.length + dist.length) [] b4 (lit ++ dist) b' ∧ lit.length = hlit + 257 ∧ dist.length = hdist + 1 ∧
    LiteralCodes lit ∧ DistanceCodes dist

/-! ### Data (RFC 1951, 3.2.4 and 3.2.5) -/

/-- The number of bits behind a symbol for a length, and the smallest length of the symbol. -/
def lengthOf (s : Nat) : Nat × Nat :=
  if s = 285 then (0, 258) else if s < 265 then (0, s - 254) else ((s - 261) / 4, (4 + (s - 261) % 4) * 2 ^ ((s - 261) / 4) + 3)

/-- The number of bits behind a symbol for a distance, and the smallest distance of the symbol. -/
def distanceOf (s : Nat) : Nat × Nat := if s < 4 then (0, s + 1) else ((s - 2) / 2, (2 + s % 2) * 2 ^ ((s - 2) / 2) + 1)

/-- `len` more bytes, each of them that before it at the distance; it may be one of the new ones. -/
def Copied (out : List Byte) (len dist : Nat) (out' : List Byte) : Prop :=
  out'.length = out.length + len ∧ out <+: out' ∧ ∀ i, out.length ≤ i → i < out'.length → out'[i]? = out'[i - dist]?

/-- The data of a block with codes, and how it changes the output. -/
inductive Data (window : Nat) (lit dist : List Nat) : List Byte → List Bool → List Byte → List Bool → Prop
  | literal {out b s b1 out' b'} : Symbol lit b s b1 → s < 256 → Data window lit dist (out ++ [BitVec.ofNat 8 s]) b1 out' b' →
      Data window lit dist out b out' b'
  | fin {out b b'} : Symbol lit b 256 b' → Data window lit dist out b out b'
  | copy {out b s b1 x b2 d b3 y b4 out1 out' b'} : Symbol lit b s b1 → 257 ≤ s → s ≤ 285 → Bits (lengthOf s).1 b1 x b2 → Symbol dist b2 d b3 →
      d ≤ 29 → Bits (distanceOf d).1 b3 y b4 → (distanceOf d).2 + y ≤ window → (distanceOf d).2 + y ≤ out.length →
      Copied out ((lengthOf s).2 + x) ((distanceOf d).2 + y) out1 → Data window lit dist out1 b4 out' b' → Data window lit dist out b out' b'

/-- The bits from the next byte on; the input ends with a byte. -/
def nextByte (b : List Bool) : List Bool := b.drop (b.length % 8)

/-- A block. -/
inductive Block (window : Nat) : List Byte → List Bool → List Byte → List Bool → Prop
  | stored {out b b1 len b2 nlen b3 bytes b'} : Bits 2 b 0 b1 → Bits 16 (nextByte b1) len b2 → Bits 16 b2 nlen b3 → len + nlen = 65535 →
      bytes.length = len → b3 = bitsOf bytes ++ b' → Block window out b (out ++ bytes) b'
  | fixed {out b b1 out' b'} : Bits 2 b 1 b1 → Data window ((List.range 288).map fixedLiteral) (List.replicate 32 5) out b1 out' b' →
      Block window out b out' b'
  | dynamic {out b b1 lit dist b2 out' b'} : Bits 2 b 2 b1 → Header b1 lit dist b2 → Data window lit dist out b2 out' b' → Block window out b out' b'

/-- Blocks, up to the last one. -/
inductive Blocks (window : Nat) : List Byte → List Bool → List Byte → List Bool → Prop
  | last {out b b1 out' b'} : Bits 1 b 1 b1 → Block window out b1 out' b' → Blocks window out b out' b'
  | more {out b b1 out1 b2 out' b'} : Bits 1 b 0 b1 → Block window out b1 out1 b2 → Blocks window out1 b2 out' b' → Blocks window out b out' b'

/-! ### zlib (RFC 1950) -/

/-- The two sums of Adler-32. -/
def sums : List Byte → Nat × Nat → Nat × Nat
  | [], s => s
  | b :: bs, (s1, s2) => sums bs ((s1 + b.toNat) % 65521, (s2 + (s1 + b.toNat) % 65521) % 65521)

def adler32 (bs : List Byte) : Nat := (sums bs (1, 0)).2 * 65536 + (sums bs (1, 0)).1

/-- `input` is a zlib stream, without a dictionary, of the bytes `out`. -/
def Stream (input out : List Byte) : Prop :=
  ∃ (cm cinfo : Nat) (cmf flg : Byte) (rest : List Byte) (b' : List Bool) (a b c d : Byte),
    input = cmf :: flg :: rest ∧ cmf.toNat = cinfo * 16 + cm ∧ cm = 8 ∧ cinfo ≤ 7 ∧ (cmf.toNat * 256 + flg.toNat) % 31 = 0 ∧
    flg.getLsbD 5 = false ∧ Blocks (2 ^ (cinfo + 8)) [] (bitsOf rest) out b' ∧ nextByte b' = bitsOf [a, b, c, d] ∧
    a.toNat * 2 ^ 24 + b.toNat * 2 ^ 16 + c.toNat * 2 ^ 8 + d.toNat = adler32 out

end Nature.Inflate.Spec
