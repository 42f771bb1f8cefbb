import Verif.Common
/-!
Model of runtime/nutils/vec.c (the built-in vector).

Element-level memory: a garbage-collected array of `n` elements is one block of `n` cells; a vector header points into
a block.  Simplifications: the header's `element_size`/`hash` are a parameter `esz`, sizes are unbounded `Nat`
(except the `int custom_capacity` parameter, whose overflow is an explicit `ub` outcome), the GC write barrier and
allocation failure are not modelled here.
-/
namespace Nature.Vec
open Nature

/-- The bytes of one element. -/
abbrev Elem := List (BitVec 8)

/-- The element heap: block `b` is `mem[b]`. -/
abbrev Mem := List (List Elem)

/-- utils/custom_links.h / runtime `n_vec_t`: `data` is `blk`+`off` (`none` = NULL). -/
structure Vec where
  blk : Option Nat
  off : Nat
  len : Nat
  cap : Nat
  deriving Repr, DecidableEq

/-- vec.h:7 `VEC_DEFAULT_CAPACITY`. -/
def defaultCap : Nat := 8

/-- Load one element cell; `none` = outside every block (undefined behaviour). -/
def load (m : Mem) (b : Option Nat) (i : Nat) : Option Elem :=
  b.bind fun b => m[b]?.bind fun c => c[i]?

/-- Store one element cell. -/
def store (m : Mem) (b : Option Nat) (i : Nat) (x : Elem) : Option Mem :=
  b.bind fun b => m[b]?.bind fun c => if i < c.length then some (m.set b (c.set i x)) else none

/-- Read `k` consecutive cells. -/
def loadN (m : Mem) (b : Option Nat) : (off k : Nat) → Option (List Elem)
  | _, 0 => some []
  | off, k + 1 => (load m b off).bind fun x => (loadN m b (off + 1) k).bind fun xs => some (x :: xs)

/-- Write consecutive cells. -/
def storeN (m : Mem) (b : Option Nat) : (off : Nat) → List Elem → Option Mem
  | _, [] => some m
  | off, x :: xs => (store m b off x).bind fun m => storeN m b (off + 1) xs

/-- `memmove` of `k` elements: all reads happen before the writes.  (`k = 0` touches nothing, also for NULL.) -/
def memmove (m : Mem) (db : Option Nat) (doff : Nat) (sb : Option Nat) (soff k : Nat) : Option Mem :=
  (loadN m sb soff k).bind fun xs => storeN m db doff xs

/-- Undefined behaviour when a memory access fails. -/
def orUb {α : Type} : Option α → Res α
  | some a => .ok a
  | none => .ub

/-- array.h `rti_array_new`: a zeroed block of `n` cells; returns the new memory and the block number. -/
def arrayNew (m : Mem) (esz n : Nat) : Mem × Nat := (m ++ [List.replicate n (List.replicate esz 0)], m.length)

/-- vec.c:7-32 `rti_vec_grow(vec, element_rtype, custom_capacity)`; `custom = 0` means "double". -/
def grow (m : Mem) (esz : Nat) (v : Vec) (custom : Nat) : Res (Mem × Vec) :=
  if 2 ^ 31 ≤ custom then .ub  -- does not fit the `int` parameter
  else
    let cap := if custom ≠ 0 then custom else if v.cap > 0 then v.cap * 2 else defaultCap
    let a := arrayNew m esz cap
    (if v.len > 0 then orUb (memmove a.1 (some a.2) 0 v.blk v.off v.len) else .ok a.1).bind fun m =>
    .ok (m, { v with blk := some a.2, off := 0, cap := cap })

/-- vec.c:99: `memcmp(value_ref, &zero, element_size) == 0`, where `zero` is an 8-byte local and `junk` are the bytes
after it on the stack: for elements longer than 8 bytes the comparison runs past the local. -/
def looksZero (junk : List (BitVec 8)) (x : Elem) : Bool :=
  x == (List.replicate 8 0 ++ junk).take x.length

/-- vec.c:73-120 `rt_vec_new(hash, element_hash, length, value_ref)`. -/
def new (m : Mem) (esz : Nat) (junk : List (BitVec 8)) (length : Int) (x : Elem) : Res (Mem × Vec) :=
  if length < 0 then .throws
  else
    let len := length.toNat
    let cap := if len = 0 then defaultCap else len
    let a := arrayNew m esz cap
    let v : Vec := ⟨some a.2, 0, len, cap⟩
    if len > 0 ∧ looksZero junk x = false then
      (orUb (storeN a.1 (some a.2) 0 (List.replicate len x))).bind fun m => .ok (m, v)
    else .ok (a.1, v)

/-- vec.c:122-154 `rt_vec_cap(hash, element_hash, capacity)`. -/
def capNew (m : Mem) (esz : Nat) (capacity : Int) : Res (Mem × Vec) :=
  if capacity < 0 then .throws
  else if capacity.toNat > 0 then
    let a := arrayNew m esz capacity.toNat
    .ok (a.1, ⟨some a.2, 0, 0, capacity.toNat⟩)
  else .ok (m, ⟨none, 0, 0, 0⟩)

/-- vec.c:179-191 `rti_vec_access(l, index, value_ref)` (`index` is unsigned: a negative index is huge). -/
def access (m : Mem) (v : Vec) (index : Nat) : Res Elem :=
  if index ≥ v.len then .throws else orUb (load m v.blk (v.off + index))

/-- vec.c:200-230 `rti_vec_assign(l, index, ref, element_rtype)`: the bound is an `assert`, and `length - 1` is
computed in unsigned arithmetic, so it never fails for an empty vector. -/
def assignRaw (m : Mem) (v : Vec) (index : Nat) (x : Elem) : Res Mem :=
  if v.len = 0 ∨ index ≤ v.len - 1 then orUb (store m v.blk (v.off + index) x) else .abort

/-- vec.c:255-287 `rt_vec_push(vec, element_hash, ref)`. -/
def push (m : Mem) (esz : Nat) (v : Vec) (x : Elem) : Res (Mem × Vec) :=
  (if v.len = v.cap then grow m esz v 0 else .ok (m, v)).bind fun r =>
  let v := { r.2 with len := r.2.len + 1 }
  (assignRaw r.1 v r.2.len x).bind fun m => .ok (m, v)

/-- vec.c:297-332 `rt_vec_slice(l, start, end)`. -/
def slice (v : Vec) (start fin : Int) : Res Vec :=
  let fin := if fin = -1 then (v.len : Int) else fin
  if start > v.len ∨ fin > v.len ∨ start < 0 ∨ fin < 0 then .throws
  else if start > fin then .throws
  else .ok ⟨v.blk, v.off + start.toNat, (fin - start).toNat, (fin - start).toNat⟩

/-- vec.c:335-346 `rt_vec_append(dst, src, element_hash)` for two different headers. -/
def append (m : Mem) (esz : Nat) (dst src : Vec) : Res (Mem × Vec) :=
  (if dst.len + src.len > dst.cap then grow m esz dst (dst.len + src.len + 1) else .ok (m, dst)).bind fun r =>
  (orUb (memmove r.1 r.2.blk (r.2.off + r.2.len) src.blk src.off src.len)).bind fun m =>
  .ok (m, { r.2 with len := r.2.len + src.len })

/-- `rt_vec_append` with `dst` and `src` the same header: after growing, `src->data` is the new array too. -/
def appendSelf (m : Mem) (esz : Nat) (v : Vec) : Res (Mem × Vec) :=
  (if v.len + v.len > v.cap then grow m esz v (v.len + v.len + 1) else .ok (m, v)).bind fun r =>
  (orUb (memmove r.1 r.2.blk (r.2.off + r.2.len) r.2.blk r.2.off r.2.len)).bind fun m =>
  .ok (m, { r.2 with len := r.2.len + r.2.len })

/-- vec.c:355-373 `rt_vec_concat(a, b, element_hash)`. -/
def concat (m : Mem) (esz : Nat) (a b : Vec) : Res (Mem × Vec) :=
  (capNew m esz ((a.len + b.len : Nat) : Int)).bind fun r =>
  let v := { r.2 with len := a.len + b.len }
  (orUb (memmove r.1 v.blk 0 a.blk a.off a.len)).bind fun m =>
  (orUb (memmove m v.blk a.len b.blk b.off b.len)).bind fun m =>
  .ok (m, v)

/-- vec.c:375-393 `rt_vec_element_addr(l, index)`: the address of the element, as block and offset. -/
def elementAddr (v : Vec) (index : Nat) : Res (Option Nat × Nat) :=
  if index ≥ v.len then .throws else .ok (v.blk, v.off + index)

/-- `v[i] = x` in the language: `rt_vec_element_addr` followed by a store. -/
def assign (m : Mem) (v : Vec) (index : Nat) (x : Elem) : Res Mem :=
  (elementAddr v index).bind fun a => orUb (store m a.1 a.2 x)

/-- vec.c:445-454 `rt_vec_copy(dst, src)`: number of elements copied. -/
def copy (m : Mem) (dst src : Vec) : Res (Mem × Nat) :=
  let n := if src.len < dst.len then src.len else dst.len
  if n > 0 then (orUb (memmove m dst.blk dst.off src.blk src.off n)).bind fun m => .ok (m, n)
  else .ok (m, n)

end Nature.Vec
