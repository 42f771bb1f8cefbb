import Verif.Bitmap.Model
/-
Model of how the compiler lays out a type and computes the collector's description of it: /repo/utils/type.c (sizes,
alignments, offsets) and /repo/src/rtype.h (`reflect_type`).  Sizes are natural numbers (`int64_t` in the code; no overflow is
modelled), names of fields are left out: a field is found by its position.
-/
namespace Nature.TypeLayout
open Nature.Bitmap (Bytes)

/-- utils/type.h:481-488, 554-570, 595-600: kinds stored as a header of fixed shape. -/
inductive Header
  | string | vec | map | set | interface
deriving DecidableEq, Repr

mutual
/-- utils/type.h:71-127 `type_kind`, after reduction.  `scalar` is a number, a boolean, an enumeration or void of the given
size; `ptr` is ref, ptr, anyptr, fn, chan or coroutine: eight bytes for which `type_is_pointer_heap` holds. -/
inductive Ty
  | void
  | int8 | int16 | int32 | int64
  | ptr
  | header (h : Header)
  | any
  | union (es : Tys)
  | tagged (es : Tys)
  | arr (t : Ty) (n : Nat)
  | struct (fs : Tys)
  | tuple (es : Tys)
inductive Tys
  | nil
  | cons (t : Ty) (rest : Tys)
end

def Tys.toList : Tys → List Ty
  | .nil => []
  | .cons t rest => t :: rest.toList

/-- utils/helper.h:486-492 `align_up`: `(n + align - 1) & ~(align - 1)`; what the mask leaves is what it takes away from. -/
def alignUp (n align : Nat) : Nat :=
  if align = 0 then n else (n + align - 1) - ((n + align - 1) &&& (align - 1))

/-- `sizeof` of the structures in utils/type.h. -/
def Header.size : Header → Nat
  | .string => 48
  | .vec => 48
  | .map => 56
  | .set => 40
  | .interface => 32

mutual
/-- utils/type.c:232-276 `type_alignof`, with 36-46 `type_struct_alignof` and 91-100 `type_tuple_alignof`.  The field `align`
of a type is this number (type.c:584, 609). -/
def alignOf : Ty → Nat
  | .void => 0
  | .int8 => 1
  | .int16 => 2
  | .int32 => 4
  | .int64 => 8
  | .ptr => 8
  | .header _ => 8
  | .any => 8
  | .union _ => 8
  | .tagged _ => 8
  | .arr t _ => alignOf t
  | .struct fs => maxAlign fs
  | .tuple es => maxAlign es
def maxAlign : Tys → Nat
  | .nil => 0
  | .cons t rest => max (alignOf t) (maxAlign rest)
end

mutual
/-- utils/type.c:106-196 `type_sizeof`, with 50-70 `type_struct_sizeof` and 72-89 `type_tuple_sizeof`.  The field
`storage_size` of a type is this number (utils/type.h:810-843). -/
def sizeOf : Ty → Nat
  | .void => 0
  | .int8 => 1
  | .int16 => 2
  | .int32 => 4
  | .int64 => 8
  | .ptr => 8
  | .header h => h.size
  | .any => 16
  | .union es => 8 + alignUp (unionPayload es) 8
  | .tagged es => 8 + alignUp (if maxSize es = 0 then 8 else maxSize es) 8
  | .arr t n => n * sizeOf t
  | .struct fs => alignUp (endFrom fs 0) (maxAlign fs)
  | .tuple es => alignUp (endFrom es 0) (maxAlign es)
/-- type.c:139-152: the payload of a union, eight bytes if there is no element. -/
def unionPayload : Tys → Nat
  | .nil => 8
  | .cons t rest => max (sizeOf t) (maxSize rest)
/-- type.c:157-166: the largest element. -/
def maxSize : Tys → Nat
  | .nil => 0
  | .cons t rest => max (sizeOf t) (maxSize rest)
/-- type.c:53-64, 75-84: where the fields end, when the first may start at `off`. -/
def endFrom : Tys → Nat → Nat
  | .nil, off => off
  | .cons t rest, off => endFrom rest (alignUp off (alignOf t) + sizeOf t)
end

/-- utils/type.c:399-418 `type_struct_offset` and 430-448 `type_tuple_offset`: the offset of the field at a position, when the
first may start at `off`. -/
def offsetFrom : Tys → Nat → Nat → Option Nat
  | .nil, _, _ => none
  | .cons t _, off, 0 => some (alignUp off (alignOf t))
  | .cons t rest, off, k + 1 => offsetFrom rest (alignUp off (alignOf t) + sizeOf t) k

def fieldOffset (fs : Tys) (k : Nat) : Option Nat := offsetFrom fs 0 k

/-- src/rtype.h:801-818: the offsets `rtype_struct` records for reflection. -/
def rtypeOffsets : Tys → Nat → List Nat
  | .nil, _ => []
  | .cons t rest, off => alignUp off (alignOf t) :: rtypeOffsets rest (alignUp off (alignOf t) + sizeOf t)

/-! ### Pointer bits -/

/-- Bits to be set, the new `*offset`, and the result (`last_ptr_offset`). -/
structure Bits where
  idx : List Nat
  off : Nat
  last : Nat

/-- src/rtype.h:654-663: how many leading words of a header are pointers. -/
def Header.slots : Header → Nat
  | .string => 1
  | .vec => 1
  | .map => 3
  | .set => 2
  | .interface => 2

/-- rtype.h:613-628 `rtype_union_gc_bits`, for a positive size. -/
def unionBits (off size : Nat) : Bits :=
  let n := alignUp size 8 / 8
  ⟨(List.range n).map (off / 8 + ·), off + size, off + n * 8⟩

/-- rtype.h:632-651 `rtype_tagged_union_gc_bits`, for a positive size. -/
def taggedBits (off size : Nat) : Bits :=
  let n := alignUp size 8 / 8
  ⟨(List.range (n - 1)).map (fun i => off / 8 + (i + 1)), off + size, if n > 1 then off + n * 8 else 0⟩

/-- rtype.h:653-677 `rtype_builtin_gc_bits`. -/
def headerBits (off : Nat) (h : Header) : Bits :=
  ⟨(List.range h.slots).map (off / 8 + ·), off + h.size, off + h.slots * 8⟩

/-- rtype.h:517-546: `n` elements one after the other, `f` for each. -/
def repeatBits (f : Nat → Bits) : Nat → Nat → Bits
  | 0, off => ⟨[], off, 0⟩
  | n + 1, off =>
    let b := f off
    let r := repeatBits f n b.off
    ⟨b.idx ++ r.idx, r.off, max b.last r.last⟩

mutual
/-- One element or field: the dispatch that rtype.h:518-541 (arrays), 689-714 (structs) and 741-764 (tuples) share.  An element
of an array counts as a last pointer whether it is a pointer or not (540), a field only if it is (712). -/
def bitsOf : (inArray : Bool) → Ty → Nat → Bits
  | a, .void, off => ⟨[], off, if a then off else 0⟩
  | a, .int8, off => ⟨[], off + 1, if a then off + 1 else 0⟩
  | a, .int16, off => ⟨[], off + 2, if a then off + 2 else 0⟩
  | a, .int32, off => ⟨[], off + 4, if a then off + 4 else 0⟩
  | a, .int64, off => ⟨[], off + 8, if a then off + 8 else 0⟩
  | _, .ptr, off => ⟨[off / 8], off + 8, off + 8⟩
  | _, .header h, off => headerBits off h
  | _, .any, off => unionBits off 16
  | _, .union es, off => unionBits off (sizeOf (.union es))
  | _, .tagged es, off => taggedBits off (sizeOf (.tagged es))
  | _, .arr t n, off => repeatBits (bitsOf true t) n off
  | _, .struct fs, off =>
    let b := fieldBits fs off
    ⟨b.idx, alignUp b.off (maxAlign fs), b.last⟩
  | _, .tuple es, off =>
    let b := fieldBits es off
    ⟨b.idx, alignUp b.off (maxAlign es), b.last⟩
/-- rtype.h:683-719 and 730-769: the loop over fields. -/
def fieldBits : Tys → Nat → Bits
  | .nil, off => ⟨[], off, 0⟩
  | .cons t rest, off =>
    let b := bitsOf false t (alignUp off (alignOf t))
    let r := fieldBits rest b.off
    ⟨b.idx ++ r.idx, r.off, max b.last r.last⟩
end

/-! ### `reflect_type` -/

/-- The fields of `rtype_t` (utils/type.h:209-229) that the collector uses. -/
structure RType where
  heapSize : Nat
  lastPtr : Nat
  bits : Bytes
deriving DecidableEq

/-- utils/type.c:321-330 `calc_gc_bits_size`: bytes. -/
def gcBitsSize (size : Nat) : Nat := alignUp (alignUp size 8 / 8) 8

/-- `data_put(NULL, …)` and the `bitmap_set` calls; `none`: a bit outside the bitmap is set. -/
def bitmapOf (size : Nat) (idx : List Nat) : Option Bytes :=
  idx.foldlM Bitmap.set (List.replicate (gcBitsSize size) 0#8)

/-- rtype.h:883-947 `reflect_type`, with 160-512 and 780-876: heap size, last pointer, bits.  `fn` and `chan`, whose heap
cells are larger, are taken as pointers here.  The last pointer of a struct goes through an `uint16_t` (822). -/
def rtypeOf : Ty → Option RType
  | .ptr => (bitmapOf 8 [0]).map fun b => ⟨8, 8, b⟩
  | .header h => (bitmapOf (if h = .interface then 16 else h.size) (List.range h.slots)).map fun b => ⟨h.size, h.slots * 8, b⟩
  | .any => (bitmapOf 16 [0]).map fun b => ⟨16, 16, b⟩
  | .union es =>
    let n := alignUp (sizeOf (.union es)) 8 / 8
    (bitmapOf (sizeOf (.union es)) (List.range n)).map fun b => ⟨sizeOf (.union es), n * 8, b⟩
  | .tagged es =>
    let n := alignUp (sizeOf (.tagged es)) 8 / 8
    (bitmapOf (sizeOf (.tagged es)) ((List.range (n - 1)).map (· + 1))).map fun b => ⟨sizeOf (.tagged es), n * 8, b⟩
  | .arr t n =>
    let r := repeatBits (bitsOf true t) n 0
    (bitmapOf (sizeOf (.arr t n)) r.idx).map fun b => ⟨sizeOf t * n, r.last, b⟩
  | .struct fs =>
    if sizeOf (.struct fs) = 0 then (bitmapOf 1 []).map fun b => ⟨1, 0, b⟩
    else
      let r := bitsOf false (.struct fs) 0
      (bitmapOf (sizeOf (.struct fs)) r.idx).map fun b => ⟨sizeOf (.struct fs), r.last % 2 ^ 16, b⟩
  | .tuple es =>
    let r := bitsOf false (.tuple es) 0
    (bitmapOf (sizeOf (.tuple es)) r.idx).map fun b => ⟨sizeOf (.tuple es), r.last, b⟩
  | t => (bitmapOf (sizeOf t) []).map fun b => ⟨sizeOf t, 0, b⟩

/-! ### Use by the collector -/

/-- runtime/collector.c:934-952: the words from `index` on, `n` of them at most, that the loop reads and offers to the work
list; `none`: a bit outside the bitmap is tested. -/
def scanWords (r : RType) : Nat → Nat → Option (List Nat)
  | 0, _ => some []
  | n + 1, index =>
    if 8 * index < r.lastPtr then
      match Bitmap.test r.bits index, scanWords r n (index + 1) with
      | some true, some l => some (8 * index :: l)
      | some false, some l => some l
      | _, _ => none
    else some []

/-- runtime/collector.c:912-966 `scan_global`, for one variable: the offsets of the words whose contents are offered to the
work list.  926: the pointer kinds have their only word read; 932: the bitmap is used for kinds stored in place. -/
def scanGlobal (t : Ty) (r : RType) : Option (List Nat) :=
  match t with
  | .ptr => some [0]
  | .void | .int8 | .int16 | .int32 | .int64 => some []
  | _ => scanWords r ((r.lastPtr + 7) / 8) 0

end Nature.TypeLayout
