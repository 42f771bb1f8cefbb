import Verif.Bitmap.Model
/-
Model of the heap's pointer bitmap: /repo/runtime/memory.h:94-131 and /repo/runtime/allocator.c:1012-1121,
with the reads of it made by the mark phase (/repo/runtime/collector.c:686-712).

The heap is cut into arenas of 64 MiB; every arena carries a bit array `bits[2097152]` with eight bits for
four words, of which the low four say whether the word holds a pointer.  Addresses are natural numbers (C:
`uint64_t`; the addresses that occur are those of mapped memory, below 2^48).  Dereferencing a missing arena,
or touching a byte outside `bits`, is undefined behaviour in C; here it is the outcome `none`.
-/
namespace Nature.ArenaBits
open Nature.Bitmap (Bytes)

/-- runtime/runtime.h:82 `ARENA_SIZE`. -/
abbrev arenaSize : Nat := 67108864

/-- runtime/runtime.h:101 `ARENA_BITS_COUNT`: bytes of one arena's bit array. -/
abbrev arenaBitsCount : Nat := 2097152

/-- The parts of `mheap_t` used here: `off` is `ARENA_BASE_OFFSET` (runtime/runtime.h:108-129, one of two
values depending on the platform), `arenas` is `mheap->arenas` (runtime/runtime.h:307) with `none` for a NULL
entry and otherwise the arena's `bits` array (runtime/runtime.h:279). -/
structure Heap where
  off : Nat
  arenas : Nat → Option Bytes

/-- runtime/memory.h:94-96 `arena_base`; runtime/allocator.c:680 stores it in `arena->base`. -/
def arenaBase (h : Heap) (i : Nat) : Nat := i * arenaSize + h.off

/-- runtime/memory.h:98-100 `arena_index`. -/
def arenaIndex (h : Heap) (addr : Nat) : Nat := (addr - h.off) / arenaSize

/-- runtime/memory.h:119-131 `arena_bits_index`, on 64-bit words as in C: `ptr_count = (addr - base) >> 3`,
`((ptr_count & ~3ULL) << 1) + (ptr_count & 3ULL)`.  The same expression is written out by hand in
runtime/allocator.c:1031-1035. -/
def bitsIndex (base addr : Nat) : Nat :=
  let c : BitVec 64 := BitVec.ofNat 64 (addr - base) >>> 3
  (((c &&& ~~~ 3#64) <<< 1) + (c &&& 3#64)).toNat

/-- `mheap->arenas[i]->bits = b`. -/
def Heap.put (h : Heap) (i : Nat) (b : Bytes) : Heap :=
  { h with arenas := fun j => if j = i then some b else h.arenas j }

/-- runtime/allocator.c:1017-1047 `heap_arena_bits_batch_handle`: one arena per iteration. -/
def batchHandle (h : Heap) (start stop : Nat) (isClear : Bool) : Option Heap :=
  if hlt : start < stop then
    match h.arenas (arenaIndex h start) with
    | none => none
    | some bits =>
      let arenaEnd := arenaBase h (arenaIndex h start) + arenaSize
      let tempEnd := if arenaEnd < stop then arenaEnd else stop
      let i0 := bitsIndex (arenaBase h (arenaIndex h start)) start
      let i1 := bitsIndex (arenaBase h (arenaIndex h start)) tempEnd
      match (if isClear then Bitmap.batchClear bits i0 (i1 - i0) else Bitmap.batchSet bits i0 (i1 - i0)) with
      | none => none
      | some bits' => batchHandle (h.put (arenaIndex h start) bits') tempEnd stop isClear
  else some h
termination_by stop - start
decreasing_by
  have h1 : start < arenaBase h (arenaIndex h start) + arenaSize := by
    simp only [arenaBase, arenaIndex, arenaSize]; omega
  have h2 : start < (if arenaBase h (arenaIndex h start) + arenaSize < stop
      then arenaBase h (arenaIndex h start) + arenaSize else stop) := by
    split
    · exact h1
    · exact hlt
  exact Nat.sub_lt_sub_left hlt h2

/-- runtime/allocator.c:1088-1109: the loop over the words below `last_ptr`; `index` counts the words. -/
def setWords (h : Heap) (gcBits : Bytes) (temp stop index : Nat) : Option Heap :=
  if temp < stop then
    match h.arenas (arenaIndex h temp) with
    | none => none
    | some bits =>
      let bi := bitsIndex (arenaBase h (arenaIndex h temp)) temp
      match Bitmap.test gcBits index with
      | none => none
      | some v =>
        match (if v then Bitmap.set bits bi else Bitmap.clear bits bi) with
        | none => none
        | some bits' => setWords (h.put (arenaIndex h temp) bits') gcBits (temp + 8) stop (index + 1)
  else some h
termination_by stop - temp

/-- The fields of `rtype_t` used by the allocator: `arrPtr` is the test of allocator.c:1065 (a runtime made
array type whose elements contain pointers), `lastPtr` is `last_ptr`, `gcBits` the bitmap selected in
allocator.c:1060-1063. -/
structure RType where
  arrPtr : Bool
  lastPtr : Nat
  gcBits : Bytes

/-- runtime/allocator.c:1056-1121 `heap_arena_bits_set`; the assertion `last_ptr > 0` is outcome `none`. -/
def heapArenaBitsSet (h : Heap) (addr objSize : Nat) (t : RType) : Option Heap :=
  if t.lastPtr = 0 then none
  else if t.arrPtr then batchHandle h addr (addr + objSize) false
  else
    match batchHandle h (addr + t.lastPtr) (addr + objSize) true with
    | none => none
    | some h' => setWords h' t.gcBits addr (addr + t.lastPtr) 0

/-- The recorded kind of the word at `addr`, read in the arena the word belongs to:
`bitmap_test(take_arena(addr)->bits, arena_bits_index(arena, addr))`. -/
def readKind (h : Heap) (addr : Nat) : Option Bool :=
  match h.arenas (arenaIndex h addr) with
  | none => none
  | some bits => Bitmap.test bits (bitsIndex (arenaBase h (arenaIndex h addr)) addr)

/-- runtime/collector.c:690-694: how the mark phase reads the kind of the word at `temp` while scanning the
object at `obj`: the arena is `take_arena(addr)` with `addr` the start of the *object*. -/
def scanKind (h : Heap) (obj temp : Nat) : Option Bool :=
  match h.arenas (arenaIndex h obj) with
  | none => none
  | some bits => Bitmap.test bits (bitsIndex (arenaBase h (arenaIndex h obj)) temp)

end Nature.ArenaBits
