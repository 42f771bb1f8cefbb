import Verif.Common
/-!
Model of the size-class choice of the allocator: /repo/runtime/sizeclass.h and the head of
/repo/runtime/allocator.c.
-/
namespace Nature.SizeClass
open Nature

/-- runtime/sizeclass.h:93-103 `class_obj_size` (68 entries). -/
def classObjSize : List Nat :=
  [0, 8, 16, 24, 32, 48, 64, 80, 96, 112, 128, 144, 160, 176, 192, 208, 224,
   240, 256, 288, 320, 352, 384, 416, 448, 480, 512, 576, 640, 704, 768,
   896,
   1024, 1152, 1280, 1408, 1536, 1792, 2048, 2304, 2688, 3072, 3200, 3456,
   4096,
   4864, 5376, 6144, 6528, 6784, 6912, 8192, 9472, 9728, 10240, 10880,
   12288,
   13568, 14336, 16384, 18432, 19072, 20480, 21760, 24576, 27264, 28672,
   32768]

/-- runtime/sizeclass.h:105-111 `class_pages_count`. -/
def classPagesCount : List Nat :=
  [0, 1, 1, 1, 1, 1, 1, 1, 1, 1, 1, 1, 1, 1, 1, 1, 1, 1, 1, 1, 1, 1, 1,
   1, 1,
   1, 1, 1, 1, 1, 1, 1, 1, 1, 1, 2, 1, 2, 1, 2, 1, 3, 2, 3, 1, 3, 2, 3,
   4, 5,
   6, 1, 7, 6, 5, 4, 3, 5, 7, 2, 9, 7, 5, 8, 3, 10, 7, 4]

/-- runtime/sizeclass.h:84 `SIZECLASS_COUNT`. -/
def sizeclassCount : Nat := 68

/-- runtime/allocator.c:18-33: the binary search loop.  `left`/`right` are C `int`s; `right = mid - 1` is only
executed when `mid > 0`, so naturals represent them exactly.  Reading outside the table is `ub`; leaving the loop
reaches `assert(false)`. -/
def searchLoop (tbl : List Nat) (size left right : Nat) : Res Nat :=
  if h : left ≤ right then
    let mid := left + (right - left) / 2
    match tbl[mid]? with
    | none => .ub
    | some objSize =>
      if objSize ≥ size then
        if hm : mid = 0 then .ok mid
        else
          match tbl[mid - 1]? with
          | none => .ub
          | some prev => if prev < size then .ok mid else searchLoop tbl size left (mid - 1)
      else searchLoop tbl size (mid + 1) right
  else .abort
termination_by right + 1 - left

/-- runtime/allocator.c:5-38 `calc_sizeclass`. -/
def calcSizeclass (size : Nat) : Res Nat :=
  if size = 1 then .ok 1
  else if size = 2 then .ok 2
  else if size = 40 then .ok 5
  else if size = 48 then .ok 5
  else if size = 56 then .ok 6
  else if size = 128 then .ok 10
  else searchLoop classObjSize size 0 (sizeclassCount - 1)

/-- runtime/allocator.c:42-44 `make_spanclass` (uint8_t arithmetic; `no_ptr` is 0 or 1). -/
def makeSpanclass (sizeclass : Nat) (noPtr : Bool) : Nat :=
  ((sizeclass <<< 1) ||| (if noPtr then 1 else 0)) % 256

/-- runtime/memory.h:215-217 `take_sizeclass`. -/
def takeSizeclass (spanclass : Nat) : Nat := spanclass >>> 1

/-- runtime/runtime.h:133 `STD_MALLOC_LIMIT`. -/
def stdMallocLimit : Nat := 32 * 1024

/-- runtime/runtime.h:91 `ALLOC_PAGE_SIZE` (8192; 16384 on Apple silicon, runtime.h:87). -/
def pageSizes : List Nat := [8192, 16384]

/-- What the choice of span determines about one request (runtime/allocator.c:1355-1395 `rti_gc_malloc`,
1122-1134 `std_malloc`, 1160-1171 `large_malloc`, 1399-1420 `mspan_new`): the span class, the size of the
cell the caller gets, the number of pages of the span and the number of cells in it. -/
structure Choice where
  spanclass : Nat
  objSize : Nat
  pages : Nat
  objCount : Nat
  deriving Repr, DecidableEq

/-- `rti_gc_malloc` up to the choice of span; `pageSize` is `ALLOC_PAGE_SIZE`.
Small requests: `std_malloc` asserts `size > 0`, `sizeclass > 0 && spanclass > 1`; `mspan_new` looks the cell size
up and asserts it is non-zero.  Large requests: pages rounded up, one cell spanning all of them. -/
def choose (pageSize size : Nat) (hasPtr : Bool) : Res Choice :=
  if size ≤ stdMallocLimit then
    if size > 0 then
      (calcSizeclass size).bind fun sc =>
        let spc := makeSpanclass sc (!hasPtr)
        if sc > 0 ∧ spc > 1 then
          let sc' := takeSizeclass spc
          match classObjSize[sc']?, classPagesCount[sc']? with
          | some os, some pc =>
            if os > 0 then .ok ⟨spc, os, pc, pc * pageSize / os⟩ else .abort
          | _, _ => .ub
        else .abort
    else .abort
  else
    let pc := size / pageSize + (if size % pageSize ≠ 0 then 1 else 0)
    .ok ⟨makeSpanclass 0 (!hasPtr), pc * pageSize, pc, 1⟩

end Nature.SizeClass
