import Verif.TypeLayout.Model
import Verif.Literal.Model

/-!
# Initial contents of global variables

src/semantic/global_eval.c (the bytes of a global variable), the part of src/semantic/infer.c that gives literals their kind, and
runtime/memory.c (what is done to global variables before the program starts).

Sizes and offsets are those of `Verif/TypeLayout`.  Numbers in literals are those of `Verif/Literal`.  Floating point numbers are the
bits that `strtod` makes of a text, a parameter.  Hashes of types are a parameter.  Not modelled: enumerations, fn, chan, ref (they take
null only, like `ptr`), `@reflect_hash`, casts other than of an integer literal to an integer type, the inference of a type that is not
written.  Default values in the declaration of a struct are written out in the initializer (infer.c:2038-2049 does that).
-/

namespace Nature.Global

open Literal (Kind rangeCheck atoll strtoll0 digits base0 clampU isUnsigned)

abbrev Byte := BitVec 8

/-- Memory, by address. -/
abbrev Mem := Nat → Byte

mutual
/-- Types after reduction. utils/type.h:71-127 -/
inductive Ty
  | bool
  | int (k : Kind)
  | f32
  | f64
  | anyptr
  | ptr
  | string
  | vec (e : Ty)
  | map (k v : Ty)
  | set (e : Ty)
  | nullable (e : Ty)
  | any
  | arr (e : Ty) (n : Nat)
  | tuple (ts : Tys)
  | struct (names : List Nat) (ts : Tys)
inductive Tys
  | nil
  | cons (t : Ty) (rest : Tys)
end

def Tys.toList : Tys → List Ty
  | .nil => []
  | .cons t rest => t :: rest.toList

/-- `type_kind_sizeof` of integers. utils/type.c:9-34 -/
def bytesOf : Kind → Nat
  | .i8 | .u8 => 1
  | .i16 | .u16 => 2
  | .i32 | .u32 => 4
  | .i64 | .u64 => 8

mutual
/-- The type as `Verif/TypeLayout` has it. -/
def lay : Ty → TypeLayout.Ty
  | .bool => .int8
  | .int .i8 | .int .u8 => .int8
  | .int .i16 | .int .u16 => .int16
  | .int .i32 | .int .u32 => .int32
  | .int .i64 | .int .u64 => .int64
  | .f32 => .int32
  | .f64 => .int64
  | .anyptr => .ptr
  | .ptr => .ptr
  | .string => .header .string
  | .vec _ => .header .vec
  | .map _ _ => .header .map
  | .set _ => .header .set
  | .nullable e => .union (.cons (lay e) (.cons .ptr .nil))
  | .any => .any
  | .arr e n => .arr (lay e) n
  | .tuple ts => .tuple (layAll ts)
  | .struct _ ts => .struct (layAll ts)
def layAll : Tys → TypeLayout.Tys
  | .nil => .nil
  | .cons t rest => .cons (lay t) (layAll rest)
end

/-- `storage_size`. -/
def size (t : Ty) : Nat := TypeLayout.sizeOf (lay t)

/-- type_tuple_offset and type_struct_offset of the field at a position. utils/type.c:399-448 -/
def offset (ts : Tys) (i : Nat) : Option Nat := TypeLayout.fieldOffset (layAll ts) i

/-- What is left open: hashes of types, bits of floating point numbers, the address of the description of `null` at run time. -/
structure Env where
  hash : Ty → BitVec 64
  f32 : List Char → BitVec 32
  f64 : List Char → BitVec 64
  nullRtype : BitVec 64

/-! ### Memory -/

/-- `memset(dst, 0, n)`. -/
def zero (m : Mem) (o n : Nat) : Mem := fun i => if o ≤ i ∧ i < o + n then 0 else m i

/-- `memmove(dst, bytes, n)` for `n` bytes. -/
def put (m : Mem) (o : Nat) (bs : List Byte) : Mem := fun i => if o ≤ i ∧ i < o + bs.length then bs.getD (i - o) 0 else m i

/-- The low `n` bytes of a number, on a little-endian machine. -/
def le (n : Nat) (u : Nat) : List Byte := (List.range n).map fun i => BitVec.ofNat 8 (u / 256 ^ i)

/-- A number as a `uint64_t`. -/
def u64 (v : Int) : Nat := (v % 2 ^ 64).toNat

/-- Store a 64-bit member of a structure. -/
def putWord (m : Mem) (o : Nat) (w : BitVec 64) : Mem := put m o (le 8 w.toNat)

/-! ### Default values -/

mutual
/-- global_eval_write_default; `o` is `dst`. src/semantic/global_eval.c:167-229 -/
def writeDefault (E : Env) : Ty → Nat → Mem → Mem
  | .string, o, m => putWord (putWord (zero m o (size .string)) (o + 24) 1) (o + 32) (E.hash .string)
  | .vec e, o, m => putWord (putWord (zero m o (size (.vec e))) (o + 24) (BitVec.ofNat 64 (size e))) (o + 32) (E.hash (.vec e))
  | .map k v, o, m => putWord (putWord (zero m o (size (.map k v))) (o + 24) (E.hash k)) (o + 32) (E.hash v)
  | .set e, o, m => putWord (zero m o (size (.set e))) (o + 16) (E.hash e)
  | .arr e n, o, m => (List.range n).foldl (fun m i => writeDefault E e (o + i * size e) m) (zero m o (size (.arr e n)))
  | .tuple ts, o, m =>
    ((defaultWriters E ts).mapIdx fun i w => (w, offset ts i)).foldl (fun m p => p.1 (o + p.2.getD 0) m) (zero m o (size (.tuple ts)))
  | .struct names ts, o, m =>
    ((defaultWriters E ts).mapIdx fun i w => (w, offset ts i)).foldl (fun m p => p.1 (o + p.2.getD 0) m)
      (zero m o (size (.struct names ts)))
  | .bool, o, m => zero m o (size .bool)
  | .int k, o, m => zero m o (size (.int k))
  | .f32, o, m => zero m o (size .f32)
  | .f64, o, m => zero m o (size .f64)
  | .anyptr, o, m => zero m o (size .anyptr)
  | .ptr, o, m => zero m o (size .ptr)
  | .nullable e, o, m => zero m o (size (.nullable e))
  | .any, o, m => zero m o (size .any)
/-- global_eval_write_default for each type of a list. -/
def defaultWriters (E : Env) : Tys → List (Nat → Mem → Mem)
  | .nil => []
  | .cons t rest => writeDefault E t :: defaultWriters E rest
end

/-! ### Literals -/

/-- `ast_literal_t`: kind and text; an integer is a sign and digits. -/
inductive Lit
  | bool (b : Bool)
  | int (k : Kind) (neg : Bool) (w : List Char)
  | float (w : List Char)
  | null
  | str (len : Nat)

/-- A literal in the source. -/
inductive Src
  | bool (b : Bool)
  | int (neg : Bool) (w : List Char)
  | float (w : List Char)
  | null
  | str (len : Nat)

def signed (neg : Bool) (w : List Char) : List Char := if neg then '-' :: w else w

/-- infer_literal, and infer_right_expr around it: the literal with its kind, or a reported error.  A literal for a nullable type or `any`
is wrapped in a cast, which global_eval looks through. src/semantic/infer.c:3258-3310, 3742-3800 -/
def inferLit : Ty → Src → Option Lit
  | .string, .str n => some (.str n)
  | .bool, .bool b => some (.bool b)
  | .f32, .float w => some (.float w)
  | .f64, .float w => some (.float w)
  | .f32, .int neg w => some (.float (signed neg w))
  | .f64, .int neg w => some (.float (signed neg w))
  | .anyptr, .null => some (.int .u64 false ['0'])
  | .anyptr, .int neg w => if rangeCheck .u64 (atoll neg w) then some (.int .u64 neg w) else none
  | .int k, .int neg w => if rangeCheck k (atoll neg w) then some (.int k neg w) else none
  | .ptr, .null => some .null
  | .nullable _, .null => some .null
  | .nullable _, .int neg w => some (.int .i64 neg w)
  | .any, .null => some .null
  | _, _ => none

/-- `*endptr == 0`. -/
def whole (w : List Char) : Bool := (digits (base0 w) 0 w).2.isEmpty

/-- `strtoull(text, &endptr, 0)`. -/
def strtoull0 (neg : Bool) (w : List Char) : Int := clampU neg (digits (base0 w) 0 w).1

/-- global_eval_literal_as_i64, as far as modelled. src/semantic/global_eval.c:253-283 -/
def asI64 : Lit → Option Int
  | .bool b => some (if b then 1 else 0)
  | .int k neg w => if whole w then some (if isUnsigned k then strtoull0 neg w else strtoll0 neg w) else none
  | _ => none

/-- global_eval_literal_as_u64, as far as modelled. src/semantic/global_eval.c:285-315 -/
def asU64 : Lit → Option Int
  | .bool b => some (if b then 1 else 0)
  | .int k neg w => if whole w then some (if isUnsigned k then strtoull0 neg w else strtoll0 neg w) else none
  | _ => none

/-- global_eval_literal_as_bool, as far as modelled. src/semantic/global_eval.c:231-251 -/
def asBool : Lit → Option Bool
  | .bool b => some b
  | .int _ neg w => if whole w then some (decide (strtoull0 neg w ≠ 0)) else none
  | _ => none

/-- global_eval_write_literal. src/semantic/global_eval.c:333-413 -/
def writeLiteral (E : Env) : Ty → Lit → Nat → Mem → Option Mem
  | .string, .str n, o, m => if n = 0 then some (writeDefault E .string o m) else none
  | .bool, l, o, m => (asBool l).map fun b => put m o [if b then 1 else 0]
  | .f32, .float w, o, m => some (put m o (le 4 (E.f32 w).toNat))
  | .f64, .float w, o, m => some (put m o (le 8 (E.f64 w).toNat))
  | .int k, l, o, m =>
    if isUnsigned k then (asU64 l).map fun v => put m o (le (bytesOf k) (u64 v)) else (asI64 l).map fun v => put m o (le (bytesOf k) (u64 v))
  | .anyptr, l, o, m => (asU64 l).map fun v => put m o (le 8 (u64 v))
  | .ptr, .null, o, m => some (zero m o (size .ptr))
  | .ptr, .int k neg w, o, m => (asU64 (.int k neg w)).bind fun v => if v = 0 then some (zero m o (size .ptr)) else none
  | .nullable e, .null, o, m => some (zero m o (size (.nullable e)))
  | _, _, _, _ => none

/-! ### Expressions -/

mutual
/-- Initializers. -/
inductive Init
  | lit (l : Src)
  | as (k : Kind) (neg : Bool) (w : List Char)
  | dflt
  | arr (es : Inits)
  | rep (e : Init) (neg : Bool) (w : List Char)
  | tuple (es : Inits)
  | struct (names : List Nat) (es : Inits)
  | vec (es : Inits)
  | map (es : Inits)
  | set (es : Inits)
  | curly
inductive Inits
  | nil
  | cons (e : Init) (rest : Inits)
end

def Inits.toList : Inits → List Init
  | .nil => []
  | .cons e rest => e :: rest.toList

/-- A loop: one step after the other, up to an error. -/
def runAll : List (Mem → Option Mem) → Mem → Option Mem
  | [], m => some m
  | f :: fs, m => (f m).bind (runAll fs)

/-- Write the field at a position of a struct or tuple. src/semantic/global_eval.c:481-486, 496-500 -/
def writeField (ts : Tys) (o i : Nat) (w : Ty → Nat → Mem → Option Mem) (m : Mem) : Option Mem :=
  match ts.toList[i]?, offset ts i with
  | some t, some a => w t (o + a) m
  | _, _ => none

/-- Write a field by its name. src/semantic/global_eval.c:496-500 -/
def writeNamed (names : List Nat) (ts : Tys) (o n : Nat) (w : Ty → Nat → Mem → Option Mem) (m : Mem) : Option Mem :=
  match names.findIdx? (· == n) with
  | some i => writeField ts o i w m
  | none => none

/-- A cast of a literal: infer_as_expr (src/semantic/infer.c:1201-1210), the check of the type (infer.c:3795) and global_eval_write_expr
(src/semantic/global_eval.c:423-428).  The literal in the cast has the kind int. -/
def writeAs (E : Env) (t : Ty) (k : Kind) (neg : Bool) (w : List Char) (o : Nat) (m : Mem) : Option Mem :=
  if rangeCheck k (atoll neg w) then
    match t with
    | .int k' => if k' = k then writeLiteral E t (.int .i64 neg w) o m else none
    | _ => none
  else none

mutual
/-- global_eval_write_expr. src/semantic/global_eval.c:415-549 -/
def writeExpr (E : Env) (t : Ty) : Init → Nat → Mem → Option Mem
  | .lit l, o, m => (inferLit t l).bind fun l => writeLiteral E t l o m
  | .as k neg w, o, m => writeAs E t k neg w o m
  | .dflt, o, m => some (writeDefault E t o m)
  | .arr es, o, m =>
    match t with
    | .arr e n =>
      if (writers E es).length ≤ n then
        runAll ((writers E es).mapIdx fun i w => w e (o + i * size e)) (writeDefault E (.arr e n) o m)
      else none
    | _ => none
  | .rep x neg w, o, m =>
    match t with
    | .arr e n =>
      if asI64 (.int .i64 neg w) = some (n : Int) then
        runAll ((List.range n).map fun i => writeExpr E e x (o + i * size e)) (writeDefault E (.arr e n) o m)
      else none
    | _ => none
  | .tuple es, o, m =>
    match t with
    | .tuple ts =>
      if (writers E es).length = ts.toList.length then
        runAll ((writers E es).mapIdx fun i w => writeField ts o i w) (writeDefault E (.tuple ts) o m)
      else none
    | _ => none
  | .struct ns es, o, m =>
    match t with
    | .struct names ts => runAll (List.zipWith (writeNamed names ts o) ns (writers E es)) (writeDefault E (.struct names ts) o m)
    | _ => none
  | .vec es, o, m =>
    match t with
    | .vec e => if (writers E es).length = 0 then some (writeDefault E (.vec e) o m) else none
    | _ => none
  | .map es, o, m =>
    match t with
    | .map k v => if (writers E es).length = 0 then some (writeDefault E (.map k v) o m) else none
    | _ => none
  | .set es, o, m =>
    match t with
    | .set e => if (writers E es).length = 0 then some (writeDefault E (.set e) o m) else none
    | _ => none
  | .curly, o, m =>
    match t with
    | .map k v => some (writeDefault E (.map k v) o m)
    | .set e => some (writeDefault E (.set e) o m)
    | _ => none
/-- global_eval_write_expr for each expression of a list. -/
def writers (E : Env) : Inits → List (Ty → Nat → Mem → Option Mem)
  | .nil => []
  | .cons e rest => (fun t => writeExpr E t e) :: writers E rest
end

/-- symdefs_deserialize for one variable: a global variable of a union type whose description is missing gets that of null.
runtime/memory.c:121-133 -/
def startup (E : Env) (t : Ty) (o : Nat) (m : Mem) : Mem :=
  match t with
  | .nullable _ => if (List.range 8).all (fun i => m (o + i) == 0) then putWord m o E.nullRtype else m
  | _ => m

/-- A global variable when the program starts: global_eval (zeroed memory, src/semantic/global_eval.c:578-579) and startup. -/
def initial (E : Env) (t : Ty) (e : Init) (o : Nat) (m : Mem) : Option Mem :=
  (writeExpr E t e o (zero m o (size t))).map (startup E t o)

end Nature.Global
