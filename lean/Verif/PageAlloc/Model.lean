import Verif.Common
import Verif.Bitmap.Model
/-!
Model of the page allocator: /repo/runtime/allocator.c:50-640 (summaries, radix tree, search), 640-825
(heap growth, span allocation), with the constants of /repo/runtime/runtime.h:84-160 for Linux
(`ALLOC_PAGE_SIZE` 8192; AMD64/ARM64 heap base).

Simplifications
* Addresses and counters are naturals; the `uint16_t`/`uint32_t` locals of the summary code are truncated explicitly
  (`u16`, `u32`), the 64-bit ones are not (no value comes near 2^64).
* The summary arrays and the chunk table are total functions of the index: the arrays' upper bounds (128 TiB) are
  not modelled.
* Locks are not modelled: `mheap_alloc_span` and `mheap_free_span` run under `memory->locker`.
-/
namespace Nature.PageAlloc
open Nature

/-- C conversion to `uint16_t`. -/
def u16 (x : Nat) : Nat := x % 2 ^ 16
/-- C conversion to `uint32_t`. -/
def u32 (x : Nat) : Nat := x % 2 ^ 32

/-- runtime/runtime.h:236-241 `page_summary_t` (`tail` is the C field `end`; `full` is never read). -/
structure Summary where
  start : Nat
  max : Nat
  tail : Nat
  deriving Repr, DecidableEq

/-- runtime/runtime.h:130 `CHUNK_BITS_COUNT`. -/
def chunkBits : Nat := 512
/-- runtime/runtime.h:91 `ALLOC_PAGE_SIZE`. -/
def pageSize : Nat := 8192
/-- runtime/runtime.h:107,127 `ARENA_HINT_BASE` = `ARENA_BASE_OFFSET`. -/
def arenaBase : Nat := 0xc000000000
/-- runtime/runtime.h:82 `ARENA_SIZE`. -/
def arenaSize : Nat := 67108864
/-- runtime/runtime.h:136 `PAGE_SUMMARY_MERGE_COUNT`. -/
def mergeCount : Nat := 8
/-- runtime/runtime.h:100 `PAGE_ALLOC_CHUNK_SPLIT`. -/
def chunkSplit : Nat := 8192
/-- runtime/runtime.h:113 `ARENA_HINT_SIZE` (AMD64, 1 TiB). -/
def hintSize : Nat := 1099511627776
/-- runtime/runtime.h:114 `ARENA_HINT_COUNT`. -/
def hintCount : Nat := 128

/-- runtime/memory.h:65-71 `summary_page_count` (levels 0..4). -/
def levelPages : Nat → Nat
  | 0 => 2097152
  | 1 => 262144
  | 2 => 32768
  | 3 => 4096
  | _ => 512

/-! ### One chunk -/

/-- runtime/runtime.h:230-232 `page_chunk_t`: eight 64-bit blocks; a set bit is a page in use. -/
abbrev Chunk := List (BitVec 64)

/-- `__builtin_ctzll`: index of the lowest set bit, undefined on zero. -/
def ctz (w : BitVec 64) : Option Nat := (List.range 64).find? fun i => w.getLsbD i
/-- `__builtin_clzll`: number of leading zero bits, undefined on zero. -/
def clz (w : BitVec 64) : Option Nat := (List.range 64).find? fun i => w.getLsbD (63 - i)

/-- allocator.c:159-168: index of the first page in use, scanning blocks upwards from block `idx`
(0 when there is none: the variable keeps its initial value). -/
def firstUsed : Chunk → Nat → Res Nat
  | [], _ => .ok 0
  | b :: rest, idx =>
    if b ≠ 0 then
      match ctz b with
      | some z => .ok (u16 (idx * 64 + z))
      | none => .ub
    else firstUsed rest (idx + 1)

/-- allocator.c:170-180: index of the last page in use, scanning blocks downwards: the argument is the list of
blocks in reverse order, `n` blocks long. -/
def lastUsed : Chunk → Res Nat
  | [] => .ok 0
  | b :: restRev =>
    if b ≠ 0 then
      match clz b with
      | some z => .ok (u16 (restRev.length * 64 + (63 - z)))
      | none => .ub
    else lastUsed restRev

/-- allocator.c:202-214: one bit of a mixed block; state is `(max, current_free)`. -/
def scanBit (st : Nat × Nat) (used : Bool) : Nat × Nat :=
  if used then (if st.2 > st.1 then st.2 else st.1, 0) else (st.1, u32 (st.2 + 1))

/-- allocator.c:187-215: one block. -/
def scanBlock (st : Nat × Nat) (b : BitVec 64) : Nat × Nat :=
  if b = 0 then (st.1, u32 (st.2 + 64))
  else if b = BitVec.allOnes 64 then (if st.2 > st.1 then st.2 else st.1, 0)
  else (List.range 64).foldl (fun st i => scanBit st ((b >>> i) &&& 1 != 0)) st

/-- allocator.c:142-225 `chunk_summarize`. -/
def chunkSummarize (c : Chunk) : Res Summary :=
  -- 144-156: everything free
  if c.foldl (· ||| ·) 0 = 0 then .ok ⟨chunkBits, chunkBits, chunkBits⟩
  else
    (firstUsed c 0).bind fun start =>
    (lastUsed c.reverse).bind fun last =>
    let tail := u16 (chunkBits - 1 - last)
    let st := c.foldl scanBlock (0, 0)
    -- 217-219: trailing free run
    let max := if st.2 > st.1 then st.2 else st.1
    .ok ⟨start, max, tail⟩

/-! ### Merging eight summaries -/

/-- allocator.c:245-256 (and its unrolled copy 259-268): one child; state is `(max, continue_max)`. -/
def mergeStep (childPages : Nat) (st : Nat × Nat) (s : Summary) : Nat × Nat :=
  let cm := st.2 + s.start
  let cm := if s.max > cm then s.max else cm
  let mx := if cm > st.1 then u32 cm else st.1
  let cm := if s.tail ≠ childPages then s.tail else cm
  (mx, cm)

/-- allocator.c:242-269: the loop, unrolled by two. -/
def mergeMax (childPages : Nat) (st : Nat × Nat) : List Summary → Nat × Nat
  | [] => st
  | [s0] => mergeStep childPages st s0
  | s0 :: s1 :: rest => mergeMax childPages (mergeStep childPages (mergeStep childPages st s0) s1) rest

/-- allocator.c:274-282: leading free pages, stopping at the first child that is not entirely free. -/
def mergeStart (childPages : Nat) (acc : Nat) : List Summary → Nat
  | [] => acc
  | s :: rest =>
    let acc := u32 (acc + s.start)
    if s.start ≠ childPages then acc else mergeStart childPages acc rest

/-- allocator.c:285-293: trailing free pages; the argument is the list of children in reverse order. -/
def mergeTail (childPages : Nat) (acc : Nat) : List Summary → Nat
  | [] => acc
  | s :: rest =>
    let acc := u32 (acc + s.tail)
    if s.tail ≠ childPages then acc else mergeTail childPages acc rest

/-- allocator.c:234-298 `merge_summarize(level, next_summaries)`; the asserts are the `abort` outcome. -/
def mergeSummarize (level : Nat) (children : List Summary) : Res Summary :=
  let childPages := levelPages (level + 1)
  let mx := (mergeMax childPages (0, 0) children).1
  let start := mergeStart childPages 0 children
  let tail := mergeTail childPages 0 children.reverse
  if start ≤ levelPages level ∧ mx ≤ levelPages level ∧ tail ≤ levelPages level then
    .ok ⟨start, mx, tail⟩
  else .abort

/-! ### Search -/

/-- allocator.c:60-95: the loop of `summary_find_continuous`; `k` is the number of remaining iterations
(`*end - i`).  Returns `(find, find_start, find_end)`. -/
def findLoop (levelPgs : Nat) (sums : Nat → Summary) (n : Nat) (origEnd : Nat) :
    (k i findStart findMax : Nat) → Bool × Nat × Nat
  | 0, _, findStart, _ => (false, findStart, origEnd)
  | k + 1, i, findStart, findMax =>
    let s := sums i
    let findMax := findMax + s.start
    if findMax ≥ n then (true, findStart, i)
    else
      let findStart := if s.max > findMax then i else findStart
      let findMax := if s.max > findMax then s.max else findMax
      if findMax ≥ n then (true, findStart, i)
      else if s.tail ≠ levelPgs then
        if s.tail > 0 then findLoop levelPgs sums n origEnd k (i + 1) i s.tail
        else findLoop levelPgs sums n origEnd k (i + 1) (i + 1) 0
      else findLoop levelPgs sums n origEnd k (i + 1) findStart findMax

/-- allocator.c:51-100 `summary_find_continuous`. -/
def summaryFind (level : Nat) (sums : Nat → Summary) (start fin n : Nat) : Bool × Nat × Nat :=
  findLoop (levelPages level) sums n fin (fin - start) start start 0

/-- State of the in-chunk scan: `current_free_start`, `current_free_count`. -/
abbrev ScanState := Nat × Nat

/-- allocator.c:545-562: the bit loop of a mixed block from bit `bit`, `k` bits left. `.inl` = found. -/
def scanMixed (b : BitVec 64) (baseBit n : Nat) : (k bit : Nat) → ScanState → Nat ⊕ ScanState
  | 0, _, st => .inr st
  | k + 1, bit, (cs, cc) =>
    if (b >>> bit) &&& 1 != 0 then scanMixed b baseBit n k (bit + 1) (cs, 0)
    else
      let cs := if cc = 0 then baseBit + bit else cs
      let cc := cc + 1
      if cc ≥ n then .inl cs else scanMixed b baseBit n k (bit + 1) (cs, cc)

/-- allocator.c:522-568: the block loop of the in-chunk scan.  `none` = left without finding (`bit_start` stays 0,
`found` false). -/
def scanChunk (n : Nat) : Chunk → (blockIdx : Nat) → ScanState → Option Nat
  | [], _, _ => none
  | b :: rest, idx, (cs, cc) =>
    if b = 0 then
      let cs := if cc = 0 then idx * 64 else cs
      let cc := cc + 64
      if cc ≥ n then some cs else scanChunk n rest (idx + 1) (cs, cc)
    else if b = BitVec.allOnes 64 then scanChunk n rest (idx + 1) (cs, 0)
    else
      match scanMixed b (idx * 64) n 64 0 (cs, cc) with
      | .inl r => some r
      | .inr st => scanChunk n rest (idx + 1) st

/-- allocator.c:511-570: the whole in-chunk search. -/
def chunkFind (c : Chunk) (n : Nat) : Option Nat := scanChunk n c 0 (0, 0)

/-! ### The radix tree -/

/-- runtime/runtime.h:252-272 `page_alloc_t`: `sum level index`, and the two-level chunk table
(`none`: the 8192-chunk group is still a null pointer). -/
structure PA where
  sum : Nat → Nat → Summary
  chunks : Nat → Option Chunk

/-- allocator.c:102-104 `chunk_base`. -/
def chunkBase (index : Nat) : Nat := index * (chunkBits * pageSize) + arenaBase
/-- allocator.c:111-113 `chunk_index`. -/
def chunkIndex (addr : Nat) : Nat := (addr - arenaBase) / (chunkBits * pageSize)

/-- The eight children passed to `merge_summarize` (allocator.c:380-386: a pointer to element `i * 8`). -/
def childrenOf (sums : Nat → Summary) (i : Nat) : List Summary :=
  (List.range mergeCount).map fun j => sums (i * 8 + j)

/-- Update of one entry of a summary array. -/
def setSum (s : Nat → Nat → Summary) (level i : Nat) (v : Summary) : Nat → Nat → Summary :=
  fun l j => if l = level ∧ j = i then v else s l j

/-- allocator.c:337-349: recompute the lowest-level summaries of chunks `idx, idx+1, …` (`k` of them). -/
def updateLowest (pa : PA) : (k idx : Nat) → Res PA
  | 0, _ => .ok pa
  | k + 1, idx =>
    match pa.chunks idx with
    | none => .abort  -- assert(l1_chunks && "chunks is null")
    | some c =>
      (chunkSummarize c).bind fun s =>
      updateLowest { pa with sum := setSum pa.sum 4 idx s } k (idx + 1)

/-- allocator.c:378-388: recompute summaries `i, i+1, …` (`k` of them) of one upper level. -/
def updateLevel (pa : PA) (level : Nat) : (k i : Nat) → Res PA
  | 0, _ => .ok pa
  | k + 1, i =>
    (mergeSummarize level (childrenOf (pa.sum (level + 1)) i)).bind fun s =>
    updateLevel { pa with sum := setSum pa.sum level i s } level k (i + 1)

/-- allocator.c:356-373 / 309-322: how many lowest-level summaries one summary of the level covers. -/
def levelDiv : Nat → Nat
  | 0 => 4096
  | 1 => 512
  | 2 => 64
  | 3 => 8
  | _ => 1

/-- One iteration of the level loop of `page_summary_update` (allocator.c:354-389). -/
def updateUpper (pa : PA) (level loIdx hiIdx : Nat) : Res PA :=
  let b := loIdx / levelDiv level
  let e := hiIdx / levelDiv level
  updateLevel pa level (e + 1 - b) b

/-- allocator.c:340-390: the body of `page_summary_update` for chunks `lo..hi`. -/
def summaryUpdateRange (pa : PA) (lo hi : Nat) : Res PA :=
  (updateLowest pa (hi + 1 - lo) lo).bind fun pa =>
  (updateUpper pa 3 lo hi).bind fun pa =>
  (updateUpper pa 2 lo hi).bind fun pa =>
  (updateUpper pa 1 lo hi).bind fun pa =>
  updateUpper pa 0 lo hi

/-- allocator.c:329-390 `page_summary_update(base, size)`. -/
def summaryUpdate (pa : PA) (base size : Nat) : Res PA :=
  summaryUpdateRange pa (chunkIndex base) (chunkIndex (base + size - 1))

/-- The bytes of a chunk as seen through `(uint8_t *) chunk->blocks` on a little-endian machine. -/
def toBytes (c : Chunk) : Bitmap.Bytes :=
  c.flatMap fun w => (List.range 8).map fun j => w.extractLsb' (8 * j) 8

/-- One little-endian 64-bit block read back from eight bytes. -/
def ofBytes8 (l : List (BitVec 8)) : BitVec 64 :=
  (l.getD 7 0 ++ l.getD 6 0 ++ l.getD 5 0 ++ l.getD 4 0 ++ l.getD 3 0 ++ l.getD 2 0 ++ l.getD 1 0 ++ l.getD 0 0 :
    BitVec (8 + 8 + 8 + 8 + 8 + 8 + 8 + 8))

/-- Reading the blocks back from the bytes. -/
def ofBytes (nBlocks : Nat) (bs : Bitmap.Bytes) : Chunk :=
  (List.range nBlocks).map fun k => ofBytes8 ((bs.drop (8 * k)).take 8)

/-- allocator.c:405-435: set/clear the page bits chunk by chunk (`k` chunks from `idx`); `fin` is `base + size`. -/
def chunksSetLoop (base fin : Nat) (value : Bool) (pa : PA) : (k idx : Nat) → Res PA
  | 0, _ => .ok pa
  | k + 1, idx =>
    match pa.chunks idx with
    | none => .ub
    | some c =>
      let tempBase := chunkBase idx
      let bitStart := if tempBase < base then (base - tempBase) / pageSize else 0
      let bitEnd := (fin - tempBase) / pageSize - 1
      let bitEnd := if bitEnd > chunkBits - 1 then chunkBits - 1 else bitEnd
      let bitCount := bitEnd - bitStart + 1
      match (if value then Bitmap.batchSet (toBytes c) bitStart bitCount
             else Bitmap.batchClear (toBytes c) bitStart bitCount) with
      | none => .ub
      | some bs =>
        let c' := ofBytes c.length bs
        chunksSetLoop base fin value
          { pa with chunks := fun j => if j = idx then some c' else pa.chunks j } k (idx + 1)

/-- allocator.c:398-438 `chunks_set(base, size, value)`. -/
def chunksSet (pa : PA) (base size : Nat) (value : Bool) : Res PA :=
  (chunksSetLoop base (base + size) value pa (chunkIndex (base + size - 1) + 1 - chunkIndex base) (chunkIndex base)).bind fun pa => summaryUpdate pa base size

/-- allocator.c:484-503: the level loop of `page_alloc_find` from `level` on (`k` levels left): `none` = not found
at level 0; failing at a lower level is `assert(found)`. -/
def descend (pa : PA) (n : Nat) : (k level start fin : Nat) → Res (Option (Nat × Nat))
  | 0, _, start, fin => .ok (some (start, fin))
  | k + 1, level, start, fin =>
    let r := summaryFind level (pa.sum level) start fin n
    if r.1 then
      if level < 4 then descend pa n k (level + 1) (r.2.1 * mergeCount) ((r.2.2 + 1) * mergeCount)
      else descend pa n k (level + 1) r.2.1 r.2.2
    else if level = 0 then .ok none
    else .abort

/-- allocator.c:465: number of level-0 summaries that are searched, from the first hint's address. -/
def searchEnd (hintAddr : Nat) : Nat := (hintAddr - arenaBase) / (32 * 1024 * 1024 * 1024) + 1

/-- allocator.c:504-590: from the lowest-level range to the address of the run. -/
def locate (pa : PA) (n start fin : Nat) : Res Nat :=
  if start = fin then
    match pa.chunks start with
    | none => .ub
    | some c =>
      -- when the scan fails `bit_start` is 0
      let bitStart := (chunkFind c n).getD 0
      .ok (chunkBase start + bitStart * pageSize)
  else
    .ok (chunkBase start + (chunkBits - (pa.sum 4 start).tail) * pageSize)

/-- allocator.c:453-602 `page_alloc_find(pages_count, must_find)`; `none` stands for the return value 0. -/
def pageAllocFind (pa : PA) (hintAddr n : Nat) (mustFind : Bool) : Res (Option Nat × PA) :=
  if hintAddr < arenaBase then .abort  -- assertf(heap_used >= 0)
  else
    (descend pa n 5 0 0 (searchEnd hintAddr)).bind fun r =>
    match r with
    | none => if mustFind then .abort else .ok (none, pa)
    | some (s, e) =>
      (locate pa n s e).bind fun addr =>
      if addr % pageSize = 0 then
        (chunksSet pa addr (n * pageSize) true).bind fun pa' => .ok (some addr, pa')
      else .abort

/-! ### Heap growth and spans -/

/-- A span as far as the page level is concerned. -/
structure Span where
  base : Nat
  pages : Nat
  deriving Repr, DecidableEq

/-- runtime/runtime.h:304-330 `mheap_t`, the parts used here.  `hints` is the list of hint addresses, head = the
node `mheap->arena_hints` points to; `arenas i` tells whether arena `i` exists; `spans p` is
`arena->spans[...]` for the page with global page number `p`. -/
structure Heap where
  pa : PA
  hints : List Nat
  arenas : Nat → Bool
  spans : Nat → Option Span
  cursor : Nat
  fin : Nat

/-- helper.h:486-492 `align_up` for a power-of-two alignment. -/
def alignUp (n align : Nat) : Nat := (n + align - 1) / align * align

/-- allocator.c:655-673: the retry loop of `mheap_sys_alloc` over the hint list; `os addr size` tells whether the OS
reserves exactly the hinted range.  Returns the reserved address and the updated hint list. -/
def reserve (os : Nat → Nat → Bool) (size : Nat) : List Nat → Res (Nat × List Nat)
  | [] => .abort   -- assert(!hint->last)
  | a :: rest =>
    if os a size then .ok (a, (a + size) :: rest)
    else (reserve os size rest).bind fun r => .ok (r.1, a :: r.2)

/-- memory.h:96-98 `arena_index`. -/
def arenaIndex (addr : Nat) : Nat := (addr - arenaBase) / arenaSize

/-- allocator.c:649-690 `mheap_sys_alloc`. -/
def sysAlloc (h : Heap) (os : Nat → Nat → Bool) (size : Nat) : Res (Nat × Nat × Heap) :=
  let allocSize := alignUp size arenaSize
  (reserve os allocSize h.hints).bind fun r =>
  let lo := arenaIndex r.1
  let hi := arenaIndex (r.1 + allocSize - 1)
  .ok (r.1, allocSize, { h with
    hints := r.2
    arenas := fun i => if lo ≤ i ∧ i ≤ hi then true else h.arenas i })

/-- allocator.c:616-630: allocate (zeroed) every missing 8192-chunk group touched by chunks `lo..hi`. -/
def growChunks (pa : PA) (lo hi : Nat) : PA :=
  let f (c : Nat) : Option Chunk :=
    (pa.chunks c).or
      (if lo / chunkSplit ≤ c / chunkSplit ∧ c / chunkSplit ≤ hi / chunkSplit then some (List.replicate 8 0) else none)
  ⟨pa.sum, f⟩

/-- allocator.c:611-637 `page_alloc_grow`. Missing chunk groups are allocated zeroed, the summaries of the range are
recomputed, and the level-0 summary of the first 16 GiB is asserted to have some free page. -/
def pageAllocGrow (pa : PA) (base size : Nat) : Res PA :=
  let lo := chunkIndex base
  let hi := chunkIndex (base + size - 1)
  (summaryUpdate (growChunks pa lo hi) base size).bind fun pa =>
  if (pa.sum 0 0).max > 0 then .ok pa else .abort

/-- allocator.c:765-783: make sure the current arena has `size` bytes left. -/
def ensureArena (h : Heap) (os : Nat → Nat → Bool) (size : Nat) : Res Heap :=
  if h.fin < h.cursor then .abort
  else if h.fin - h.cursor < size then
    (sysAlloc h os size).bind fun r =>
    if r.1 = 0 then .abort
    else if r.1 = h.fin then .ok { r.2.2 with fin := h.fin + r.2.1 }
    else .ok { r.2.2 with cursor := r.1, fin := r.1 + r.2.1 }
  else .ok h

/-- allocator.c:753-790 `mheap_grow(pages_count)`. -/
def grow (h : Heap) (os : Nat → Nat → Bool) (n : Nat) : Res Heap :=
  let size := alignUp n chunkBits * pageSize
  (ensureArena h os size).bind fun h =>
  (pageAllocGrow h.pa h.cursor size).bind fun pa =>
  .ok { h with pa := pa, cursor := h.cursor + size }

/-- Global page number of an address. -/
def pageOf (addr : Nat) : Nat := (addr - arenaBase) / pageSize

/-- memory.h:109-117 `take_arena`: is there an arena for the address? -/
def hasArena (h : Heap) (addr : Nat) : Bool :=
  decide (arenaBase ≤ addr) && decide (addr < h.fin) && h.arenas (arenaIndex addr)

/-- allocator.c:696-721 `mheap_set_spans`, `k` pages left from page number `i` of the span. -/
def setSpans (h : Heap) (s : Span) : (k i : Nat) → Res Heap
  | 0, _ => .ok h
  | k + 1, i =>
    let a := s.base + i * pageSize
    if hasArena h a then
      if h.spans (pageOf a) = none then
        setSpans { h with spans := fun p => if p = pageOf a then some s else h.spans p } s k (i + 1)
      else .abort  -- "span overlap"
    else .abort    -- "cannot find arena by addr"

/-- allocator.c:723-746 `mheap_clear_spans`. -/
def clearSpans (h : Heap) (s : Span) : (k i : Nat) → Res Heap
  | 0, _ => .ok h
  | k + 1, i =>
    let a := s.base + i * pageSize
    if hasArena h a then
      if h.spans (pageOf a) = none then .abort  -- "span not set"
      else clearSpans { h with spans := fun p => if p = pageOf a then none else h.spans p } s k (i + 1)
    else .abort

/-- Head of the hint list: `memory->mheap->arena_hints->addr` (allocator.c:454); the list is never empty. -/
def hintAddr (h : Heap) : Nat := h.hints.headD 0

/-- allocator.c:801-820: search, and on failure grow the heap and search again. -/
def findOrGrow (h : Heap) (os : Nat → Nat → Bool) (n : Nat) : Res (Nat × Heap) :=
  (pageAllocFind h.pa (hintAddr h) n false).bind fun r =>
  match r.1 with
  | some a => .ok (a, { h with pa := r.2 })
  | none =>
    (grow { h with pa := r.2 } os n).bind fun h =>
    (pageAllocFind h.pa (hintAddr h) n true).bind fun r =>
    match r.1 with
    | some a => .ok (a, { h with pa := r.2 })
    | none => .abort

/-- allocator.c:798-828 `mheap_alloc_span` (the metadata block of the span itself is `fixalloc`'s business). -/
def allocSpan (h : Heap) (os : Nat → Nat → Bool) (n : Nat) : Res (Span × Heap) :=
  if n = 0 then .abort
  else
    (findOrGrow h os n).bind fun r =>
    (setSpans r.2 (Span.mk r.1 n) n 0).bind fun h => .ok (Span.mk r.1 n, h)

/-- allocator.c:1216-1251 `mheap_free_span`. -/
def freeSpan (h : Heap) (s : Span) : Res Heap :=
  (chunksSet h.pa s.base (s.pages * pageSize) false).bind fun pa =>
  clearSpans { h with pa := pa } s s.pages 0

/-- allocator.c:1331-1353 `span_of`. -/
def spanOf (h : Heap) (addr : Nat) : Option Span :=
  if hasArena h addr then h.spans (pageOf addr) else none

/-- allocator.c:1196-1214 `arena_hints_init` and 1253-1300 `memory_init`: nothing mapped, all summaries zero. -/
def init : Heap where
  pa := ⟨fun _ _ => ⟨0, 0, 0⟩, fun _ => none⟩
  hints := (List.range hintCount).map fun i => arenaBase + i * hintSize
  arenas := fun _ => false
  spans := fun _ => none
  cursor := 0
  fin := 0

end Nature.PageAlloc
