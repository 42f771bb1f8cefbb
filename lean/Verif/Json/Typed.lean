import Verif.Common
import Verif.Json.RoundTrip
/-
Model of the typed part of /repo/std/json/json.n: `serialize<T>` and `deserialize<T>` for booleans, integers, strings,
vectors, maps with string keys, structs and nullable types.  Floats, `any` and the limit on the size of the input
(json.n:260-262) are left out.

`deserialize` writes into memory that holds something already: the default value of `T` at the top, zeroes in the elements
of a vector or the values of a map that were just allocated.  Cells model that memory.
-/
namespace Nature.Json

mutual
/-- reflect.n `type_t`, the kinds that are modelled. -/
inductive Ty
  | bool
  | int (signed : Bool) (bits : Nat)
  | str
  | vec (t : Ty)
  | map (t : Ty)
  | struct (fs : Fields)
  | opt (t : Ty)
/-- Name and type of each field. -/
inductive Fields
  | nil
  | cons (name : List Byte) (t : Ty) (rest : Fields)
end

/-- Memory of a type.  A vector (runtime/nutils/vec.h `n_vec_t`) has its length and the elements its capacity allows;
`sized` says that `element_size` is set.  A map (map.h `n_map_t`) has its entries; `typed` says that `key_rtype_hash` and
`value_rtype_hash` are set.  `unset` is a union whose `rtype` is 0. -/
inductive Cell
  | bool (b : Bool)
  | int (z : Int)
  | str (s : List Byte)
  | vec (sized : Bool) (len : Nat) (mem : List Cell)
  | map (typed : Bool) (es : List (List Byte × Cell))
  | struct (cs : List Cell)
  | unset
  | null
  | some (c : Cell)

mutual
/-- Memory that is all zeroes: what `rti_array_new` gives (runtime/nutils/vec.c:20, map.c:38-39). -/
def zeroOf : Ty → Cell
  | .bool => .bool false
  | .int _ _ => .int 0
  | .str => .str []
  | .vec _ => .vec false 0 []
  | .map _ => .map false []
  | .struct fs => .struct (zeroFields fs)
  | .opt _ => .unset
def zeroFields : Fields → List Cell
  | .nil => []
  | .cons _ t rest => zeroOf t :: zeroFields rest
end

mutual
/-- `@default(T)`: src/linear.c:496-519 (vectors), 667-701 (maps), 449-470 (nullable). -/
def defaultOf : Ty → Cell
  | .bool => .bool false
  | .int _ _ => .int 0
  | .str => .str []
  | .vec _ => .vec true 0 []
  | .map _ => .map true []
  | .struct fs => .struct (defaultFields fs)
  | .opt _ => .null
def defaultFields : Fields → List Cell
  | .nil => []
  | .cons _ t rest => defaultOf t :: defaultFields rest
end

/-! ### Numbers -/

/-- `f64`: only the operations `parser_number` uses, and the conversion to an integer type. -/
structure F64 where
  F : Type
  lit : Nat → F
  add : F → F → F
  mul : F → F → F
  div : F → F → F
  neg : F → F
  toInt : Bool → Nat → F → Int

/-- json.n:494-502: digits are read with `v = v * 10.0 + digit`. -/
def F64.digits (O : F64) (l : List Byte) : O.F := l.foldl (fun a c => O.add (O.mul a (O.lit 10)) (O.lit (c.toNat - 48))) (O.lit 0)

/-- json.n:515, 554-557: `10.0 * … ` from `1.0`. -/
def F64.pow10 (O : F64) : Nat → O.F
  | 0 => O.lit 1
  | n + 1 => O.mul (O.pow10 n) (O.lit 10)

/-- json.n:477-569 `parser_number`; it takes the same bytes as `parser_number_token`. -/
def parserNumber (O : F64) (s : List Byte) : Option (O.F × List Byte) :=
  let p := numSign (skipWs s)
  (numInt p.2).bind fun (i, s) => (numFrac s).bind fun (f, s) => (numExp s).bind fun (e, s) =>
    let v := O.digits i
    let v := if f = [] then v else O.add v (O.div (O.digits f.tail) (O.pow10 f.tail.length))
    let ex := (numExpSign e.tail)
    let n := ex.2.foldl (fun a c => a * 10 + (c.toNat - 48)) 0
    if n > 400 then none
    else
      let v := if e = [] then v else if ex.1 = [45] then O.div v (O.pow10 n) else O.mul v (O.pow10 n)
      some (if p.1 = [45] then O.neg v else v, s)

/-! ### deserialize -/

def lift {α : Type} : Option α → Res α
  | .some a => .ok a
  | .none => .throws

/-- runtime/nutils/vec.c:7-31 `rti_vec_grow` without a custom capacity: the elements are copied by `element_size`. -/
def grow (zero : Cell) (sized : Bool) (len : Nat) (mem : List Cell) : List Cell :=
  let cap := if mem.length > 0 then mem.length * 2 else 8
  let kept := if sized then mem.take len else []
  kept ++ List.replicate (cap - kept.length) zero

/-- json.n:411-427: the elements, `pe` parses one into the memory it is given. -/
def vecLoop (pe : Cell → List Byte → Res (Cell × List Byte)) (zero : Cell) (sized : Bool) :
    Nat → Nat → List Cell → List Byte → Res (Cell × List Byte)
  | 0, _, _, _ => .throws
  | n + 1, len, mem, s =>
    let mem := if len = mem.length then grow zero sized len mem else mem
    (pe (mem.getD len zero) s).bind fun p =>
      match consume [93] p.2 with
      | .some s => .ok (.vec sized (len + 1) (mem.set len p.1), s)
      | .none => (lift (consume [44] p.2)).bind fun s => vecLoop pe zero sized n (len + 1) (mem.set len p.1) s

/-- `rt_map_assign` (runtime/nutils/map.c:178-223): the memory of the value of a key; new memory is zero. -/
def cellAt (zero : Cell) (k : List Byte) : List (List Byte × Cell) → Cell
  | [] => zero
  | e :: es => if e.1 = k then e.2 else cellAt zero k es

def putCell (k : List Byte) (c : Cell) : List (List Byte × Cell) → List (List Byte × Cell)
  | [] => [(k, c)]
  | e :: es => if e.1 = k then (k, c) :: es else e :: putCell k c es

/-- json.n:440-454.  A map without types cannot be given a key: `rt_map_init_if_needed` (map.c:23-41) asserts. -/
def mapLoop (pe : Cell → List Byte → Res (Cell × List Byte)) (zero : Cell) (typed : Bool) :
    Nat → List (List Byte × Cell) → List Byte → Res (Cell × List Byte)
  | 0, _, _ => .throws
  | n + 1, es, s =>
    (lift (parserString s)).bind fun k =>
      if typed = false then .abort
      else (lift (consume [58] k.2)).bind fun s => (pe (cellAt zero k.1 es) s).bind fun p =>
        match consume [125] p.2 with
        | .some s => .ok (.map typed (putCell k.1 p.1 es), s)
        | .none => (lift (consume [44] p.2)).bind fun s => mapLoop pe zero typed n (putCell k.1 p.1 es) s

/-- json.n:374-395.  `pf` parses the field with a name, if there is one; `skip` is `parser_any`. -/
def structLoop (pf : List Byte → List Cell → List Byte → Option (Res (List Cell × List Byte)))
    (skip : List Byte → Option (List Byte)) : Nat → List Cell → List Byte → Res (Cell × List Byte)
  | 0, _, _ => .throws
  | n + 1, cs, s =>
    (lift (parserString s)).bind fun k => (lift (consume [58] k.2)).bind fun s =>
      ((pf k.1 cs s).getD ((lift (skip s)).bind fun s => .ok (cs, s))).bind fun p =>
        match consume [125] p.2 with
        | .some s => .ok (.struct p.1, s)
        | .none => (lift (consume [44] p.2)).bind fun s => structLoop pf skip n p.1 s

/-- json.n:686-699: the memory inside a nullable before its value is parsed.  `rt_vec_new_out` has a capacity of 8
(runtime/nutils/vec.c:85-88). -/
def optInit (t : Ty) : Cell :=
  match t with
  | .vec e => .vec true 0 (List.replicate 8 (zeroOf e))
  | .map _ => .map true []
  | t => zeroOf t

mutual
/-- json.n:276-355 `parser`, with 357-398 `parser_struct`, 400-429 `parser_vec`, 431-456 `parser_map`, 459-475 `parser_bool`
and 663-705 `parser_nullable`.  The number is how many containers may still be entered.  An unknown member is skipped by
`parser_any` (707-742), which takes what `parser_value` takes (that it refuses exponents above 400 is not modelled). -/
def des (O : F64) : Ty → Nat → Cell → List Byte → Res (Cell × List Byte)
  | .bool, _, _, s =>
    match consume [116, 114, 117, 101] s with
    | .some s => .ok (.bool true, s)
    | .none => (lift (consume [102, 97, 108, 115, 101] s)).bind fun s => .ok (.bool false, s)
  | .int sg w, _, _, s => (lift (parserNumber O s)).bind fun p => .ok (.int (O.toInt sg w p.1), p.2)
  | .str, _, _, s => (lift (parserString s)).bind fun p => .ok (.str p.1, p.2)
  | .vec t, d, c, s =>
    match d, c with
    | d + 1, .vec sized _ mem =>
      (lift (consume [91] s)).bind fun s =>
        match consume [93] s with
        | .some s => .ok (.vec sized 0 mem, s)
        | .none => vecLoop (des O t d) (zeroOf t) sized (s.length + 1) 0 mem s
    | _, _ => .throws
  | .map t, d, c, s =>
    match d, c with
    | d + 1, .map typed es =>
      (lift (consume [123] s)).bind fun s =>
        match consume [125] s with
        | .some s => .ok (.map typed es, s)
        | .none => mapLoop (des O t d) (zeroOf t) typed (s.length + 1) es s
    | _, _ => .throws
  | .struct fs, d, c, s =>
    match d, c with
    | d + 1, .struct cs =>
      (lift (consume [123] s)).bind fun s =>
        match consume [125] s with
        | .some s => .ok (.struct cs, s)
        | .none => structLoop (desField O fs d) (fun s => (parserValue d s).map (·.2)) (s.length + 1) cs s
    | _, _ => .throws
  | .opt t, d, c, s =>
    match skipWs s with
    | [] => .throws
    | ch :: _ =>
      if ch = 110 then (lift (consume [110, 117, 108, 108] s)).bind fun s => .ok (c, s)
      else (des O t d (optInit t) s).bind fun p => .ok (.some p.1, p.2)
/-- json.n:369-372, 382-387: the field with the name `key`. -/
def desField (O : F64) : Fields → Nat → List Byte → List Cell → List Byte → Option (Res (List Cell × List Byte))
  | .nil, _, _, _, _ => .none
  | .cons name t rest, d, key, cs, s =>
    match cs with
    | [] => .none
    | c :: cs =>
      if name = key then .some ((des O t d c s).bind fun p => .ok (p.1 :: cs, p.2))
      else (desField O rest d key cs s).map fun r => r.bind fun p => .ok (c :: p.1, p.2)
end

/-- json.n:259-274 `deserialize`. -/
def deserialize (O : F64) (t : Ty) (s : List Byte) : Res Cell :=
  (des O t maxDepth (defaultOf t) s).bind fun p => if skipWs p.2 = [] then .ok p.1 else .throws

/-- runtime/nutils/vec.c:375-393 `rt_vec_element_addr`: what `v[i]` reads; the offset is `element_size * index`. -/
def Cell.index : Cell → Nat → Option Cell
  | .vec sized len mem, i => if i < len then mem[if sized then i else 0]? else .none
  | _, _ => .none

def Cell.length : Cell → Option Nat
  | .vec _ len _ => .some len
  | _ => .none

/-! ### serialize -/

/-- A value of a type. -/
inductive TVal
  | bool (b : Bool)
  | int (z : Int)
  | str (s : List Byte)
  | vec (l : List TVal)
  | map (m : List (List Byte × TVal))
  | struct (l : List TVal)
  | null
  | some (v : TVal)

/-- json.n:39-70: `fmt.sprintf('%d', …)`, see `Fmt.fmtArg`. -/
def serInt (signed : Bool) (bits : Nat) (z : Int) : List Byte :=
  if signed then Fmt.itosWith bits z 32 0 else Fmt.utosWith 10 97 z.toNat 32 0

mutual
/-- json.n:26-109 `serialize_value`, 178-199 `serialize_struct`, 201-221 `serialize_vec`, 223-252 `serialize_map`. -/
def ser : Ty → TVal → List Byte
  | .bool, v =>
    match v with
    | .bool b => if b then [116, 114, 117, 101] else [102, 97, 108, 115, 101]
    | _ => []
  | .int sg w, v =>
    match v with
    | .int z => serInt sg w z
    | _ => []
  | .str, v =>
    match v with
    | .str s => serializeString s
    | _ => []
  | .vec t, v =>
    match v with
    | .vec l => 91 :: (commas (l.map (ser t)) ++ [93])
    | _ => []
  | .map t, v =>
    match v with
    | .map m => 123 :: (commas (m.map fun e => serializeString e.1 ++ 58 :: ser t e.2) ++ [125])
    | _ => []
  | .struct fs, v =>
    match v with
    | .struct l => 123 :: (commas (serFields fs l) ++ [125])
    | _ => []
  | .opt t, v =>
    match v with
    | .null => [110, 117, 108, 108]
    | .some v => ser t v
    | _ => []
def serFields : Fields → List TVal → List (List Byte)
  | .nil, _ => []
  | .cons name t rest, vs =>
    match vs with
    | [] => []
    | v :: vs => (34 :: (name ++ 34 :: 58 :: ser t v)) :: serFields rest vs
end

end Nature.Json
