import Verif.Common

/-!
# Decompression of debug sections

src/ld/ld_elf_zlib.c, function by function.  An error is `err`; reading or writing outside of an array, and a loop that does not end, is
`fault`.  Simplifications: the memory of the output and of the code lengths is the list of what has been written so far (both are
written from front to back, and only what has been written is read); the arrays of a Huffman tree are functions, each access is checked
against the size of the array; numbers of type uint16_t and uint32_t in trees, which stay below 2^17, are natural numbers; allocation
always succeeds; checks of null pointers are left out.
-/

namespace Nature.Inflate

abbrev Byte := BitVec 8

/-- `ld_elf_zlib_result_t`. src/ld/ld_elf_zlib.h:7-26 -/
inductive Err
  | invalidArgument
  | truncated
  | badHeader
  | presetDictionary
  | invalidBlockType
  | storedLengthMismatch
  | invalidDynamicHeader
  | oversubscribed
  | incomplete
  | missingEndOfBlock
  | invalidCode
  | invalidDistance
  | outputSizeMismatch
  | checksumMismatch
  | trailingData
deriving DecidableEq

inductive Res (α : Type)
  | ok (a : α)
  | err (e : Err)
  | fault
deriving DecidableEq

def Res.bind {α β : Type} (x : Res α) (f : α → Res β) : Res β :=
  match x with
  | .ok a => f a
  | .err e => .err e
  | .fault => .fault

/-- `ld_elf_zlib_reader_t`; `size` is the length of `data`. src/ld/ld_elf_zlib.c:24-30 -/
structure Reader where
  data : List Byte
  offset : Nat
  bits : Nat
  bitCount : Nat

/-- The loop of ld_elf_zlib_read_bits. src/ld/ld_elf_zlib.c:192-197 -/
def refill (r : Reader) (count : Nat) : Res Reader :=
  if r.bitCount < count then
    if r.offset ≥ r.data.length then .err .truncated
    else
      match r.data[r.offset]? with
      | none => .fault
      | some b => refill { r with bits := (r.bits ||| b.toNat <<< r.bitCount) % 2 ^ 64, offset := r.offset + 1, bitCount := r.bitCount + 8 } count
  else .ok r
termination_by count - r.bitCount

/-- ld_elf_zlib_read_bits. src/ld/ld_elf_zlib.c:187-208 -/
def readBits (r : Reader) (count : Nat) : Res (Nat × Reader) :=
  if count > 16 then .err .invalidArgument
  else (refill r count).bind fun r =>
    if count = 0 then .ok (0, r)
    else .ok (r.bits &&& (2 ^ count - 1), { r with bits := r.bits >>> count, bitCount := r.bitCount - count })

/-- ld_elf_zlib_align_reader. src/ld/ld_elf_zlib.c:210-214 -/
def align (r : Reader) : Reader :=
  let discard := r.bitCount &&& 7
  { r with bits := r.bits >>> discard, bitCount := r.bitCount - discard }

/-- ld_elf_zlib_read_aligned_byte. src/ld/ld_elf_zlib.c:216-224 -/
def readByte (r : Reader) : Res (Byte × Reader) :=
  if r.bitCount ≠ 0 then .err .invalidArgument
  else if r.offset ≥ r.data.length then .err .truncated
  else
    match r.data[r.offset]? with
    | none => .fault
    | some b => .ok (b, { r with offset := r.offset + 1 })

/-- ld_elf_zlib_read_u16_le. src/ld/ld_elf_zlib.c:226-237 -/
def readU16 (r : Reader) : Res (Nat × Reader) :=
  (readByte r).bind fun p => (readByte p.2).bind fun q => .ok (p.1.toNat ||| q.1.toNat <<< 8, q.2)

/-! ### Huffman trees -/

/-- `ld_elf_zlib_huffman_t`. src/ld/ld_elf_zlib.c:32-37 -/
structure Tree where
  counts : Nat → Nat
  symbols : Nat → Nat
  symbolCount : Nat
  maxBits : Nat

/-- Count the lengths. src/ld/ld_elf_zlib.c:256-263 -/
def countLengths (maxBits : Nat) : List Nat → (Nat → Nat) × Nat → Res ((Nat → Nat) × Nat)
  | [], s => .ok s
  | l :: ls, (counts, maximum) =>
    if l > maxBits then .err .invalidDynamicHeader
    else if l = 0 then countLengths maxBits ls (counts, maximum)
    else if l < 16 then countLengths maxBits ls (fun i => if i = l then counts i + 1 else counts i, if l > maximum then l else maximum)
    else .fault

/-- Check the numbers of codes; `n` rounds from `bits` on. src/ld/ld_elf_zlib.c:266-271 -/
def codesLeft (counts : Nat → Nat) : Nat → Nat → Int → Res Int
  | 0, _, left => .ok left
  | n + 1, bits, left =>
    if bits < 16 then
      let left := left * 2 - counts bits
      if left < 0 then .err .oversubscribed else codesLeft counts n (bits + 1) left
    else .fault

/-- The start of each length; `n` rounds from `bits` on. src/ld/ld_elf_zlib.c:277-281 -/
def startOffsets (counts : Nat → Nat) : Nat → Nat → (Nat → Nat) → Res (Nat → Nat)
  | 0, _, offsets => .ok offsets
  | n + 1, bits, offsets =>
    if bits + 1 < 16 then startOffsets counts n (bits + 1) (fun i => if i = bits + 1 then offsets bits + counts bits else offsets i)
    else .fault

/-- Sort the symbols. src/ld/ld_elf_zlib.c:282-287 -/
def sortSymbols : List Nat → Nat → (Nat → Nat) → (Nat → Nat) → Res (Nat → Nat)
  | [], _, _, symbols => .ok symbols
  | l :: ls, symbol, offsets, symbols =>
    if l ≠ 0 then
      if l < 16 ∧ offsets l < 288 then
        sortSymbols ls (symbol + 1) (fun i => if i = l then offsets i + 1 else offsets i) (fun i => if i = offsets l then symbol else symbols i)
      else .fault
    else sortSymbols ls (symbol + 1) offsets symbols

/-- ld_elf_zlib_build_huffman. src/ld/ld_elf_zlib.c:239-289 -/
def build (lengths : List Nat) (maxBits : Nat) (allowSingle requireEnd : Bool) : Res Tree :=
  if lengths.length > 288 ∨ maxBits = 0 ∨ maxBits > 15 then .err .invalidArgument
  else if requireEnd && (decide (lengths.length ≤ 256) || (lengths.getD 256 0 == 0)) then .err .missingEndOfBlock
  else (countLengths maxBits lengths (fun _ => 0, 0)).bind fun p =>
    if p.2 = 0 then .ok ⟨p.1, fun _ => 0, lengths.length, maxBits⟩
    else (codesLeft p.1 maxBits 1 1).bind fun left =>
      if left > 0 ∧ ¬ (allowSingle ∧ p.2 = 1 ∧ p.1 1 = 1) then .err .incomplete
      else (startOffsets p.1 (maxBits - 1) 1 (fun _ => 0)).bind fun offsets =>
        (sortSymbols lengths 0 offsets (fun _ => 0)).bind fun symbols => .ok ⟨p.1, symbols, lengths.length, maxBits⟩

/-- The loop of ld_elf_zlib_decode_symbol; `n` rounds from `length` on. src/ld/ld_elf_zlib.c:298-318 -/
def decodeLoop (t : Tree) : Nat → Nat → Nat → Nat → Nat → Reader → Res (Nat × Reader)
  | 0, _, _, _, _, _ => .err .invalidCode
  | n + 1, length, code, first, index, r =>
    (readBits r 1).bind fun p =>
      let code := code ||| p.1
      if length < 16 then
        let count := t.counts length
        if code < first + count then
          if code < first then .fault -- the index would wrap around
          else
            let i := index + code - first
            if i ≥ t.symbolCount then .err .invalidCode
            else if i < 288 then .ok (t.symbols i, p.2) else .fault
        else decodeLoop t n (length + 1) (code <<< 1) ((first + count) <<< 1) (index + count) p.2
      else .fault

/-- ld_elf_zlib_decode_symbol. src/ld/ld_elf_zlib.c:291-319 -/
def decodeSymbol (r : Reader) (t : Tree) : Res (Nat × Reader) := decodeLoop t t.maxBits 1 0 0 0 r

/-! ### Output -/

/-- ld_elf_zlib_write_literal. src/ld/ld_elf_zlib.c:321-328 -/
def writeLiteral (size : Nat) (out : List Byte) (b : Byte) : Res (List Byte) :=
  if out.length ≥ size then .err .outputSizeMismatch else .ok (out ++ [b])

/-- The loop of ld_elf_zlib_write_match. src/ld/ld_elf_zlib.c:341-345 -/
def copyLoop (size distance : Nat) : Nat → List Byte → Res (List Byte)
  | 0, out => .ok out
  | n + 1, out =>
    if out.length < size ∧ distance ≤ out.length then
      match out[out.length - distance]? with
      | none => .fault
      | some b => copyLoop size distance n (out ++ [b])
    else .fault

/-- ld_elf_zlib_write_match. src/ld/ld_elf_zlib.c:330-347 -/
def writeMatch (size window : Nat) (out : List Byte) (length distance : Nat) : Res (List Byte) :=
  if distance = 0 ∨ distance > window ∨ distance > out.length then .err .invalidDistance
  else if length < 3 ∨ length > 258 then .err .invalidCode
  else if length > size - out.length then .err .outputSizeMismatch
  else copyLoop size distance length out

/-! ### Blocks -/

/-- ld_elf_zlib_make_fixed_trees. src/ld/ld_elf_zlib.c:349-365 -/
def fixedTrees : Res (Tree × Tree) :=
  (build (List.replicate 144 8 ++ List.replicate 112 9 ++ List.replicate 24 7 ++ List.replicate 8 8) 15 true true).bind fun l =>
    (build (List.replicate 32 5) 15 true false).bind fun d => .ok (l, d)

/-- `code_length_order`. src/ld/ld_elf_zlib.c:387-407 -/
def order : List Nat := [16, 17, 18, 0, 8, 7, 9, 6, 10, 5, 11, 4, 12, 3, 13, 2, 14, 1, 15]

/-- Read the lengths of the codes for lengths: `n` rounds from `i` on. src/ld/ld_elf_zlib.c:408-413 -/
def readCodeLengths : Nat → Nat → List Nat → Reader → Res (List Nat × Reader)
  | 0, _, lens, r => .ok (lens, r)
  | n + 1, i, lens, r =>
    (readBits r 3).bind fun p =>
      match order[i]? with
      | none => .fault
      | some j => if j < 19 then readCodeLengths n (i + 1) (lens.set j p.1) p.2 else .fault

/-- Write one length several times. src/ld/ld_elf_zlib.c:454-459 -/
def repeatLength (total : Nat) (lens : List Nat) (n l : Nat) : Res (List Nat) :=
  if n > total - lens.length then .err .invalidDynamicHeader
  else if lens.length + n ≤ 316 then .ok (lens ++ List.replicate n l) else .fault

/-- Read the lengths of the codes; `fuel` rounds at most. src/ld/ld_elf_zlib.c:420-460 -/
def readLengths (t : Tree) (total : Nat) : Nat → List Nat → Reader → Res (List Nat × Reader)
  | 0, lens, r => if lens.length < total then .fault else .ok (lens, r)
  | fuel + 1, lens, r =>
    if lens.length < total then
      (decodeSymbol r t).bind fun p =>
        if p.1 ≤ 15 then
          if lens.length < 316 then readLengths t total fuel (lens ++ [p.1]) p.2 else .fault
        else if p.1 = 16 then
          if lens.length = 0 then .err .invalidDynamicHeader
          else (readBits p.2 2).bind fun q =>
            match lens[lens.length - 1]? with
            | none => .fault
            | some l => (repeatLength total lens (q.1 + 3) l).bind fun lens => readLengths t total fuel lens q.2
        else if p.1 = 17 then
          (readBits p.2 3).bind fun q => (repeatLength total lens (q.1 + 3) 0).bind fun lens => readLengths t total fuel lens q.2
        else if p.1 = 18 then
          (readBits p.2 7).bind fun q => (repeatLength total lens (q.1 + 11) 0).bind fun lens => readLengths t total fuel lens q.2
        else .err .invalidDynamicHeader
    else .ok (lens, r)

/-- ld_elf_zlib_make_dynamic_trees. src/ld/ld_elf_zlib.c:367-468 -/
def dynamicTrees (r : Reader) : Res ((Tree × Tree) × Reader) :=
  (readBits r 5).bind fun a => (readBits a.2 5).bind fun b => (readBits b.2 4).bind fun c =>
    let literalCount := a.1 + 257
    let distanceCount := b.1 + 1
    let codeLengthCount := c.1 + 4
    if literalCount > 286 ∨ distanceCount > 30 then .err .invalidDynamicHeader
    else (readCodeLengths codeLengthCount 0 (List.replicate 19 0) c.2).bind fun d =>
      (build d.1 7 false false).bind fun t =>
        (readLengths t (literalCount + distanceCount) (literalCount + distanceCount) [] d.2).bind fun e =>
          (build (e.1.take literalCount) 15 true true).bind fun lt =>
            (build (e.1.drop literalCount) 15 true false).bind fun dt => .ok ((lt, dt), e.2)

/-- `ld_elf_zlib_length_base`. src/ld/ld_elf_zlib.c:47-77 -/
def lengthBase : List Nat := [3, 4, 5, 6, 7, 8, 9, 10, 11, 13, 15, 17, 19, 23, 27, 31, 35, 43, 51, 59, 67, 83, 99, 115, 131, 163, 195, 227, 258]

/-- `ld_elf_zlib_length_extra`. src/ld/ld_elf_zlib.c:79-109 -/
def lengthExtra : List Nat := [0, 0, 0, 0, 0, 0, 0, 0, 1, 1, 1, 1, 2, 2, 2, 2, 3, 3, 3, 3, 4, 4, 4, 4, 5, 5, 5, 5, 0]

/-- `ld_elf_zlib_distance_base`. src/ld/ld_elf_zlib.c:111-142 -/
def distanceBase : List Nat := [1, 2, 3, 4, 5, 7, 9, 13, 17, 25, 33, 49, 65, 97, 129, 193, 257, 385, 513, 769, 1025, 1537, 2049, 3073, 4097, 6145,
  8193, 12289, 16385, 24577]

/-- `ld_elf_zlib_distance_extra`. src/ld/ld_elf_zlib.c:144-175 -/
def distanceExtra : List Nat := [0, 0, 0, 0, 1, 1, 2, 2, 3, 3, 4, 4, 5, 5, 6, 6, 7, 7, 8, 8, 9, 9, 10, 10, 11, 11, 12, 12, 13, 13]

/-- An entry of a table. -/
def look (l : List Nat) (i : Nat) : Res Nat :=
  match l[i]? with
  | some v => .ok v
  | none => .fault

/-- ld_elf_zlib_decode_compressed_block; `fuel` rounds at most. src/ld/ld_elf_zlib.c:470-513 -/
def decodeBlock (size window : Nat) (lt dt : Tree) : Nat → List Byte → Reader → Res (List Byte × Reader)
  | 0, _, _ => .fault
  | fuel + 1, out, r =>
    (decodeSymbol r lt).bind fun p =>
      if p.1 < 256 then (writeLiteral size out (BitVec.ofNat 8 p.1)).bind fun out => decodeBlock size window lt dt fuel out p.2
      else if p.1 = 256 then .ok (out, p.2)
      else if p.1 < 257 ∨ p.1 > 285 then .err .invalidCode
      else (look lengthExtra (p.1 - 257)).bind fun e => (readBits p.2 e).bind fun q => (look lengthBase (p.1 - 257)).bind fun base =>
        (decodeSymbol q.2 dt).bind fun d =>
          if d.1 > 29 then .err .invalidCode
          else (look distanceExtra d.1).bind fun e' => (readBits d.2 e').bind fun q' => (look distanceBase d.1).bind fun base' =>
            (writeMatch size window out (base + q.1) (base' + q'.1)).bind fun out => decodeBlock size window lt dt fuel out q'.2

/-- ld_elf_zlib_decode_stored_block. src/ld/ld_elf_zlib.c:515-543 -/
def storedBlock (size : Nat) (out : List Byte) (r : Reader) : Res (List Byte × Reader) :=
  (readU16 (align r)).bind fun p => (readU16 p.2).bind fun q =>
    if q.1 ≠ (p.1 ^^^ 0xffff) then .err .storedLengthMismatch
    else if p.1 > size - out.length then .err .outputSizeMismatch
    else if p.1 > q.2.data.length - q.2.offset then .err .truncated
    else .ok (out ++ (q.2.data.drop q.2.offset).take p.1, { q.2 with offset := q.2.offset + p.1 })

/-- ld_elf_zlib_decode_blocks; `fuel` rounds at most. A block of codes has at most as many rounds as there are bits in the input.
src/ld/ld_elf_zlib.c:545-579 -/
def decodeBlocks (size window : Nat) : Nat → List Byte → Reader → Res (List Byte × Reader)
  | 0, _, _ => .fault
  | fuel + 1, out, r =>
    (readBits r 1).bind fun f => (readBits f.2 2).bind fun k =>
      (if k.1 = 0 then storedBlock size out k.2
      else if k.1 = 1 then fixedTrees.bind fun t => decodeBlock size window t.1 t.2 (8 * r.data.length + 8) out k.2
      else if k.1 = 2 then (dynamicTrees k.2).bind fun t => decodeBlock size window t.1.1 t.1.2 (8 * r.data.length + 8) out t.2
      else .err .invalidBlockType).bind fun b =>
        if f.1 ≠ 0 then .ok b else decodeBlocks size window fuel b.1 b.2

/-- The inner loop of ld_elf_zlib_adler32. src/ld/ld_elf_zlib.c:589-592 -/
def adlerChunk : List Byte → Nat × Nat → Nat × Nat
  | [], s => s
  | b :: bs, (first, second) =>
    let first := (first + b.toNat) % 2 ^ 32
    adlerChunk bs (first, (second + first) % 2 ^ 32)

/-- The outer loop of ld_elf_zlib_adler32. src/ld/ld_elf_zlib.c:586-595 -/
def adlerLoop (data : List Byte) (first second : Nat) : Nat × Nat :=
  if data.length = 0 then (first, second)
  else
    let chunk := if data.length < 5552 then data.length else 5552
    let s := adlerChunk (data.take chunk) (first, second)
    adlerLoop (data.drop chunk) (s.1 % 65521) (s.2 % 65521)
termination_by data.length
decreasing_by simp only [List.length_drop]; split <;> omega

/-- ld_elf_zlib_adler32. src/ld/ld_elf_zlib.c:581-597 -/
def adler32 (data : List Byte) : Nat :=
  let s := adlerLoop data 1 0
  (s.2 <<< 16 ||| s.1) % 2 ^ 32

/-- ld_elf_zlib_finish. src/ld/ld_elf_zlib.c:599-626 -/
def finish (size : Nat) (out : List Byte) (r : Reader) : Res (List Byte) :=
  (readByte (align r)).bind fun a => (readByte a.2).bind fun b => (readByte b.2).bind fun c => (readByte c.2).bind fun d =>
    if d.2.offset ≠ d.2.data.length then .err .trailingData
    else if out.length ≠ size then .err .outputSizeMismatch
    else if adler32 out ≠ (a.1.toNat <<< 24 ||| b.1.toNat <<< 16 ||| c.1.toNat <<< 8 ||| d.1.toNat) then .err .checksumMismatch
    else .ok out

/-- ld_elf_zlib_decompress_with_allocator. src/ld/ld_elf_zlib.c:628-685 -/
def decompress (input : List Byte) (size : Nat) : Res (List Byte) :=
  match input with
  | cmf :: flg :: _ =>
    if cmf &&& 0x0f ≠ 8 ∨ (cmf >>> 4).toNat > 7 ∨ (cmf.toNat <<< 8 ||| flg.toNat) % 31 ≠ 0 then .err .badHeader
    else if flg &&& 0x20 ≠ 0 then .err .presetDictionary
    else
      let window := 1 <<< ((cmf >>> 4).toNat + 8)
      if window > 32768 then .err .badHeader
      else (decodeBlocks size window (8 * input.length + 8) [] ⟨input, 2, 0, 0⟩).bind fun p => finish size p.1 p.2
  | _ => .err .truncated

end Nature.Inflate
