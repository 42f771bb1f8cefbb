import Verif.Bitmap.Model
/-
Model of the object slots of one span: /repo/runtime/allocator.c:935-1010 (`mcache_alloc`), 1124-1200
(`std_malloc`, `large_malloc`), 1399-1437 (`mspan_new`) and /repo/runtime/collector.c:153-241 (`sweep_span`).

A span is owned by one processor between sweeps and swept with the world stopped, so its operations are
sequential.  Left out: the search for a span with room (`mcache_refill`, mcentral lists), the pointer bitmap
(modelled in ArenaBits) and the bit storage (`gcbits_new`, modelled in GcBits; here it returns a zeroed bitmap).
The page size is 8192 (Linux; on darwin/arm64 it is 16384 and the bound on the slot count 2048).
A failed assertion, and a bit access outside the bitmap, are the outcome `none`.
-/
namespace Nature.Span
open Nature.Bitmap (Bytes)

/-- Byte addressed memory. -/
abbrev Mem := Nat → BitVec 8

/-- runtime/runtime.h:184-209 `mspan_t`, without the list link, the locks and `sweepgen`. -/
structure Span where
  base : Nat
  stop : Nat
  objCount : Nat
  objSize : Nat
  allocCount : Nat
  freeIndex : Nat
  allocBits : Bytes
  markBits : Bytes
  needzero : Bool

/-- The span, the memory of the process and the global counter `allocated_bytes` (runtime/memory.c:9, a
`size_t`). -/
structure World where
  span : Span
  mem : Mem
  allocated : BitVec 64

/-- runtime/gcbits.c:59-65 `gcbits_new`: zeroed, a whole number of 64-bit blocks. -/
def gcbitsNew (n : Nat) : Bytes := List.replicate ((n + 63) / 64 * 8) 0#8

/-- runtime/allocator.c:1399-1437 `mspan_new`; `classSize` is `class_obj_size[sizeclass]`, or 0 for the large
size class.  (The assertion that a size class has a non-zero size is a fact about the table, see SizeClass.) -/
def mspanNew (base pages classSize : Nat) : Span :=
  let objSize := if classSize = 0 then pages * 8192 else classSize
  let objCount := if classSize = 0 then 1 else pages * 8192 / classSize
  ⟨base, base + pages * 8192, objCount, objSize, 0, 0, gcbitsNew objCount, gcbitsNew objCount, false⟩

/-- `memset((void *) a, 0, n)`. -/
def zero (m : Mem) (a n : Nat) : Mem := fun x => if a ≤ x ∧ x < a + n then 0#8 else m x

/-- runtime/allocator.c:965-971: the search of `mcache_alloc` for a clear bit, `n` slots from `i` on;
inner `none` = no clear bit, outer `none` = read outside the bitmap. -/
def scan (bits : Bytes) : Nat → Nat → Option (Option Nat)
  | _, 0 => some none
  | i, n + 1 =>
    match Bitmap.test bits i with
    | none => none
    | some true => scan bits (i + 1) n
    | some false => some (some i)

/-- runtime/allocator.c:963-1009: `mcache_alloc` once the processor holds a span that is not full; it returns
the address of the object.  `none` also for the "out of memory" assertion at the end. -/
def mcacheAlloc (s : Span) (m : Mem) : Option (Nat × Span × Mem) :=
  match scan s.allocBits s.freeIndex (s.objCount - s.freeIndex) with
  | none => none
  | some none => none
  | some (some i) =>
    match Bitmap.set s.allocBits i with
    | none => none
    | some bits =>
      let addr := s.base + i * s.objSize
      let count := s.allocCount + 1
      if s.needzero then
        some (addr, { s with allocBits := bits, freeIndex := i + 1, allocCount := count,
                             needzero := if count = s.objCount then false else true }, zero m addr s.objSize)
      else some (addr, { s with allocBits := bits, freeIndex := i + 1, allocCount := count }, m)

/-- runtime/allocator.c:954-957 and 1124-1154: the span part of `std_malloc`.  A full span is replaced by
another one before it is searched (`mcache_refill`), so it is never asked: outcome `none`. -/
def stdMalloc (w : World) : Option (Nat × World) :=
  if w.span.allocCount = w.span.objCount then none
  else
    match mcacheAlloc w.span w.mem with
    | none => none
    | some (addr, s, m) => some (addr, ⟨s, m, w.allocated + BitVec.ofNat 64 w.span.objSize⟩)

/-- runtime/allocator.c:1156-1200: the span part of `large_malloc` of `size` bytes on a fresh span for it. -/
def largeMalloc (base size : Nat) (m : Mem) (allocated : BitVec 64) : Option (Nat × World) :=
  let pages := size / 8192 + (if size % 8192 ≠ 0 then 1 else 0)
  let s := mspanNew base pages 0
  if s.objCount ≠ 1 then none
  else
    match Bitmap.set s.allocBits 0 with
    | none => none
    | some bits =>
      let s := { s with allocBits := bits, allocCount := s.allocCount + 1 }
      some (s.base, ⟨{ s with needzero := false }, if s.needzero then zero m s.base s.objSize else m,
        allocated + BitVec.ofNat 64 size⟩)

/-- The local variables of the loop of `sweep_span` and the global counter it updates. -/
structure Acc where
  allocCount : Nat
  freeIndex : Option Nat
  hasFreed : Bool
  allocated : BitVec 64

/-- runtime/collector.c:172-200: one iteration of the loop of `sweep_span`. -/
def sweepSlot (s : Span) (i : Nat) (a : Acc) : Option Acc :=
  match Bitmap.test s.markBits i with
  | none => none
  | some true => some { a with allocCount := a.allocCount + 1 }
  | some false =>
    match Bitmap.test s.allocBits i with
    | none => none
    | some true =>
      some { a with freeIndex := a.freeIndex.orElse fun _ => some i,
                    allocated := a.allocated - BitVec.ofNat 64 s.objSize, hasFreed := true }
    | some false => some { a with freeIndex := a.freeIndex.orElse fun _ => some i }

/-- runtime/collector.c:172-200: the loop of `sweep_span`, `n` slots from `i` on. -/
def sweepLoop (s : Span) : Nat → Nat → Acc → Option Acc
  | _, 0, a => some a
  | i, n + 1, a => (sweepSlot s i a).bind (sweepLoop s (i + 1) n)

/-- Where `sweep_span` leaves the span. -/
inductive Fate
  | toHeap
  | full
  | partialList
  deriving DecidableEq

/-- runtime/collector.c:153-241 `sweep_span`. -/
def sweepSpan (w : World) : Option (Fate × World) :=
  let s := w.span
  if ¬ (0 < s.base ∧ 0 < s.objCount ∧ s.objCount ≤ 1024) then none
  else
    match sweepLoop s 0 s.objCount ⟨0, none, false, w.allocated⟩ with
    | none => none
    | some a =>
      let s' : Span := { s with
        allocBits := s.markBits
        markBits := gcbitsNew s.objCount
        allocCount := a.allocCount
        freeIndex := a.freeIndex.getD 0
        needzero := if a.hasFreed then true else s.needzero }
      let w' : World := ⟨s', w.mem, a.allocated⟩
      if s'.allocCount = 0 then some (.toHeap, w')
      else if s'.allocCount = s'.objCount then some (.full, w')
      else some (.partialList, w')

/-- runtime/collector.c:660-672 (`handle_gc_ptr`) and runtime/allocator.c `mark_ptr_black`: set the mark bit of
a slot. -/
def mark (w : World) (i : Nat) : Option World :=
  match Bitmap.set w.span.markBits i with
  | none => none
  | some bits => some { w with span := { w.span with markBits := bits } }

end Nature.Span
