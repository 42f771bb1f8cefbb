import Verif.Types.TagSpec
/-
How types are told apart at run time.

`text` and `typeHash` follow `type_hash` (src/rtype.h:27-163): a text is made from the kind of the
type and the hashes of its parts, and `hash_string` (utils/helper.h:273-290) makes 32 bits of it.
The rest follows the table of types (src/rtype.h:949-964, runtime/memory.c:61-93,
runtime/rtype.c:48-52) and the functions of runtime/nutils/nutils.c:217-490 that put a value into
a union, an `any`, an interface or a tagged union, and get it out again.

Simplifications.  Texts are lists of characters; identifiers are ASCII (src/syntax/scanner.c:92-94),
so that a character is a byte.  Memory is a number of objects, each a map from offsets to bytes.
-/
namespace Nature.Types

/-- A number in decimal.  `PRId64`; hashes and lengths are not negative. -/
def dec (n : Nat) : List Char :=
  if n < 10 then [Char.ofNat (48 + n)] else dec (n / 10) ++ [Char.ofNat (48 + n % 10)]

/-- `hash_data`.  utils/helper.h:273-282. -/
def fnvLoop (h : Nat) : List Char → Nat
  | [] => h
  | c :: cs => fnvLoop ((h ^^^ c.toNat) * 16777619 % 4294967296) cs

/-- `hash_string`.  utils/helper.h:284-290. -/
def fnv (l : List Char) : Nat :=
  match l with
  | [] => 0
  | c :: cs => fnvLoop 2166136261 (c :: cs)

/-- `type_kind_str` of the types with no parts.  utils/type.h:148-199. -/
def primText : Prim → String
  | .bool => "bool"
  | .i8 => "i8" | .u8 => "u8" | .i16 => "i16" | .u16 => "u16"
  | .i32 => "i32" | .u32 => "u32" | .i64 => "i64" | .u64 => "u64"
  | .f32 => "f32" | .f64 => "f64"
  | .string => "string" | .anyptr => "anyptr" | .coroutine => "coroutine_t"
  | .null => "null" | .void => "void" | .any => "any" | .enum => "enum"

/-- Hashes one after the other, each after a dot.  src/rtype.h:35-38, 83-87, 116-120, 126-130. -/
def dots : List Nat → List Char
  | [] => []
  | h :: hs => '.' :: dec h ++ dots hs

/-- The properties of a struct: name, dot, hash.  src/rtype.h:97-102. -/
def fieldsText : List String → List Nat → List Char
  | n :: ns, h :: hs => n.toList ++ '.' :: dec h ++ fieldsText ns hs
  | _, _ => []

/-- The elements of a tagged union: dot, tag, dot, hash.  src/rtype.h:136-141. -/
def tagsText : List String → List Nat → List Char
  | n :: ns, h :: hs => '.' :: n.toList ++ '.' :: dec h ++ tagsText ns hs
  | _, _ => []

mutual
/-- The text that `type_hash` hashes.  src/rtype.h:27-163, for a given `hash_string`. -/
def text (H : List Char → Nat) (t : Ty) : List Char :=
  match t with
  | .named n a _ => n.toList ++ dots (hashes H a)                              -- 28-40
  | .iface n a => n.toList ++ dots (hashes H a)                                -- 28-40
  | .prim p => (primText p).toList                                             -- 42-44, 149-162
  | .allT => "all_t".toList                                                    -- 42-44
  | .fnT => "fn_t".toList                                                      -- 42-44
  | .integerT => "integer_t".toList                                            -- 162
  | .floaterT => "floater_t".toList                                            -- 162
  | .ref t => "ref".toList ++ '.' :: dec (H (text H t))                              -- 46-49
  | .ptr t => "ptr".toList ++ '.' :: dec (H (text H t))                              -- 51-54
  | .vec t => "vec".toList ++ '.' :: dec (H (text H t))                              -- 56-59
  | .chan t => "chan".toList ++ '.' :: dec (H (text H t))                            -- 61-64
  | .arr n t => "arr".toList ++ '.' :: dec n ++ '_' :: dec (H (text H t))            -- 66-70
  | .map k v => "map".toList ++ '.' :: dec (H (text H k)) ++ '_' :: dec (H (text H v)) -- 72-77
  | .set t => "set".toList ++ '.' :: dec (H (text H t))                              -- 79-82
  | .tuple ts => "tuple".toList ++ dots (hashes H ts)                          -- 84-92
  | .struct ns ts => "struct".toList ++ fieldsText ns (hashes H ts)            -- 94-107
  | .fn fl r ps =>                                                             -- 109-117
    (if fl.fx then "fx".toList else "fn".toList) ++ '.' :: dec (H (text H r)) ++ dots (hashes H ps)
  | .union _ ts => "union".toList ++ dots (hashes H ts)                        -- 119-127
  | .tagged ns ts => "tagged_union".toList ++ tagsText ns (hashes H ts)        -- 129-138
  | .param _ => "ident".toList                                                 -- 162
  | .stop => "ident".toList                                                    -- 162
termination_by structural t

/-- The hashes of several types. -/
def hashes (H : List Char → Nat) (ts : List Ty) : List Nat :=
  match ts with
  | [] => []
  | t :: ts => H (text H t) :: hashes H ts
termination_by structural ts
end

/-- `type_hash`.  src/rtype.h:27-163. -/
def typeHash (H : List Char → Nat) (t : Ty) : Nat := H (text H t)

/-! ### the table of types -/

/-- `storage_kind_t`.  utils/type.h:131-135. -/
inductive Storage where
  | ind | ptr | dir
deriving DecidableEq, Repr

/-- The parts of `rtype_t` that are used here.  utils/type.h:209-232. -/
structure Rtype where
  hash : Nat
  size : Nat
  storage : Storage

/-- `ct_register_rtype`.  src/rtype.h:949-964: only the first type with a hash is entered. -/
def register (H : List Char → Nat) (size : Ty → Nat) (storage : Ty → Storage) (tbl : List Rtype)
    (t : Ty) : List Rtype :=
  if tbl.any (fun r => r.hash == typeHash H t) then tbl
  else tbl ++ [{ hash := typeHash H t, size := size t, storage := storage t }]

/-- The table of a program with these types, in the order the compiler meets them. -/
def table (H : List Char → Nat) (size : Ty → Nat) (storage : Ty → Storage) (ts : List Ty) :
    List Rtype :=
  ts.foldl (register H size storage) []

/-- `rt_find_rtype`.  runtime/rtype.c:48-52. -/
def findRtype (tbl : List Rtype) (h : Nat) : Option Rtype := tbl.find? (fun r => r.hash == h)

/-! ### memory -/

/-- The bytes of one object. -/
abbrev Bytes := Nat → UInt8

/-- All objects. -/
abbrev Mem := Nat → Bytes

/-- `memmove(dst, src, n)`. -/
def copy (n : Nat) (src dst : Bytes) : Bytes := fun i => if i < n then src i else dst i

/-- One object replaced. -/
def Mem.set (m : Mem) (a : Nat) (b : Bytes) : Mem := fun x => if x = a then b else m x

/-! ### unions -/

/-- `n_union_t`.  utils/type.h:572-579: the payload follows the type. -/
structure UnionCell where
  rtype : Rtype
  value : Bytes

/-- `union_casting`.  runtime/nutils/nutils.c:368-396; none where an assertion fails.  `&out->value`
and `&out->value.struct_` are one address. -/
def unionCast (tbl : List Rtype) (old : Bytes) (h : Nat) (src : Bytes) : Option UnionCell :=
  match findRtype tbl h with
  | none => none
  | some r => some { rtype := r, value := copy r.size src (copy 8 (fun _ => 0) old) }

/-- The number of payload bytes that `union_casting` writes. -/
def unionWrites (r : Rtype) : Nat := if r.size < 8 then 8 else r.size

/-- The payload bytes of a union with alternatives of these sizes.  utils/type.c:138-154
(`type_sizeof`), without the first eight, which hold the type. -/
def payload (sizes : List Nat) : Nat :=
  let m := if sizes.length > 0 then sizes.foldl (fun m s => if s > m then s else m) 0 else 8
  (m + 7) / 8 * 8

/-- `union_is`, `any_is`, `interface_is`.  runtime/nutils/nutils.c:292-302. -/
def cellIs (r : Rtype) (h : Nat) : Bool := r.hash == h

/-- What `as` gives: an error for the program, a failed lookup or a read through something that is
no address, or the bytes. -/
inductive Out where
  | thrown | crash | got (b : Bytes)

/-- `union_assert`.  runtime/nutils/nutils.c:248-268. -/
def unionAssert (tbl : List Rtype) (c : UnionCell) (h : Nat) (out : Bytes) : Out :=
  if c.rtype.hash != h then .thrown
  else match findRtype tbl h with
    | none => .crash
    | some r => .got (copy r.size c.value out)

/-! ### `any` and interfaces -/

/-- The value of an `n_any_t` or an `n_interface_t`: eight bytes, or the address of an object. -/
inductive Boxed where
  | inline (b : Bytes)
  | at (a : Nat)

/-- `n_any_t`, `n_interface_t`.  utils/type.h:581-612, without the methods. -/
structure AnyCell where
  rtype : Rtype
  value : Boxed

/-- `any_casting`.  runtime/nutils/nutils.c:403-436.  `src` is the object that holds the value,
`fresh` the object that `rti_gc_malloc` gives. -/
def anyCast (tbl : List Rtype) (fx : Bool) (fresh h src : Nat) (m : Mem) : Option (AnyCell × Mem) :=
  match findRtype tbl h with
  | none => none
  | some r =>
    if r.storage == .ind then
      if fx then some ({ rtype := r, value := .at src }, m)
      else some ({ rtype := r, value := .at fresh }, m.set fresh (copy r.size (m src) (m fresh)))
    else some ({ rtype := r, value := .inline (copy r.size (m src) (fun _ => 0)) }, m)

/-- `any_assert`.  runtime/nutils/nutils.c:270-290. -/
def anyAssert (tbl : List Rtype) (c : AnyCell) (h : Nat) (m : Mem) (out : Bytes) : Out :=
  if c.rtype.hash != h then .thrown
  else match findRtype tbl h with
    | none => .crash
    | some r =>
      match r.storage, c.value with
      | .ind, .at a => .got (copy r.size (m a) out)
      | .ind, .inline _ => .crash
      | _, .inline b => .got (copy r.size b out)
      | _, .at _ => .crash

/-- `interface_casting`.  runtime/nutils/nutils.c:312-360, without the methods. -/
def ifaceCast (tbl : List Rtype) (fresh h src : Nat) (m : Mem) : Option (AnyCell × Mem) :=
  match findRtype tbl h with
  | none => none
  | some r =>
    if r.storage != .ptr then
      some ({ rtype := r, value := .at fresh }, m.set fresh (copy r.size (m src) (m fresh)))
    else some ({ rtype := r, value := .inline (copy r.size (m src) (fun _ => 0)) }, m)

/-- `interface_assert`.  runtime/nutils/nutils.c:217-240. -/
def ifaceAssert (tbl : List Rtype) (c : AnyCell) (h : Nat) (m : Mem) (out : Bytes) : Out :=
  if c.rtype.hash != h then .thrown
  else match findRtype tbl h with
    | none => .crash
    | some r =>
      match r.storage, c.value with
      | .ptr, .inline b => .got (copy r.size b out)
      | .ptr, .at _ => .crash
      | _, .at a => .got (copy r.size (m a) out)
      | _, .inline _ => .crash

/-- `union_to_any`.  runtime/nutils/nutils.c:441-459.  `src` is the object that holds the payload of
the union. -/
def unionToAny (tbl : List Rtype) (fx : Bool) (fresh : Nat) (r : Rtype) (src : Nat) (m : Mem) :
    Option (AnyCell × Mem) :=
  anyCast tbl fx fresh r.hash src m

/-- The tag kept in a tagged union.  src/linear.c:2989. -/
def tagOf (H : List Char → Nat) (tag : String) : Nat := H tag.toList

/-- `x is tag`.  src/linear.c:3170-3177. -/
def tagIs (H : List Char → Nat) (stored : Nat) (tag : String) : Bool := tagOf H tag == stored

end Nature.Types
