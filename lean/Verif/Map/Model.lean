import Verif.Common
/-!
Model of the runtime hash map and hash set: runtime/nutils/hash.h, map.c, set.c.

Keys are abstract: `K` is the raw key value, `img` its string image (`rtype_value_to_str`, modelled in `Verif.Key`),
`hash` the hash of the image, an arbitrary function, so every collision pattern is covered.  Key equality is equality
of images (hash.h:49-58).  Table words are 64-bit and manipulated as in the code.  Out-of-bounds accesses are `ub`.
Allocation is assumed to succeed and to return zeroed memory (`zk`, `zv` are the all-zero key and value).
-/
namespace Nature.Map
open Nature

/-- A hash table word, hash.h:8-11. -/
abbrev Word := BitVec 64

/-- hash.h:20-23 `hash_value_set`: bit 63. -/
def isSet (w : Word) : Bool := (w &&& (1#64 <<< 63)) != 0#64
/-- hash.h:29-32 `hash_value_deleted`: bit 62. -/
def isDeleted (w : Word) : Bool := (w &&& (1#64 <<< 62)) != 0#64
/-- hash.h:39-41 `extract_data_index`. -/
def dataIndex (w : Word) : Nat := ((w <<< 2) >>> 2).toNat
/-- map.c:17-21 `set_data_index`, set.c:3-7: the word written for data index `d`. -/
def mkWord (d : Nat) : Word := BitVec.ofNat 64 d ||| (1#64 <<< 63)
/-- map.c:304: the tombstone written by `rt_map_delete`. -/
def tomb : Word := (1#64 <<< 63) ||| (1#64 <<< 62)

/-- How keys are compared and hashed: hash.h:43-58 `key_hash`, `key_equal`. -/
structure KeyOps (K : Type) (I : Type) where
  img : K → I
  hash : I → Nat

/-- `n_map_t` (utils/type.h), without the type hashes. -/
structure Map (K V : Type) where
  cap : Nat
  len : Nat
  table : List Word
  keys : List K
  vals : List V

variable {K I V : Type} [DecidableEq I]

/-- hash.h:84-120, the loop of `find_hash_slot`; `fuel` is `capacity - attempts`. -/
def findLoop (o : KeyOps K I) (table : List Word) (cap : Nat) (keys : List K) (k : K) :
    Nat → Nat → Option Nat → Res Nat
  | 0, _, _ => .abort
  | fuel + 1, idx, firstDel =>
    match table[idx]? with
    | none => .ub
    | some w =>
      if isSet w = false then .ok (firstDel.getD idx)
      else if isDeleted w = true then
        findLoop o table cap keys k fuel ((idx + 1) % cap) (match firstDel with | some x => some x | none => some idx)
      else
        match keys[dataIndex w]? with
        | none => .ub
        | some k' =>
          if o.img k' = o.img k then .ok idx
          else findLoop o table cap keys k fuel ((idx + 1) % cap) firstDel

/-- hash.h:66-121 `find_hash_slot`. -/
def find (o : KeyOps K I) (table : List Word) (cap : Nat) (keys : List K) (k : K) : Res Nat :=
  findLoop o table cap keys k cap (o.hash (o.img k) % cap) none

/-- Word at a slot; a missing slot is an out-of-bounds access. -/
def word (table : List Word) (h : Nat) : Res Word :=
  match table[h]? with
  | some w => .ok w
  | none => .ub

/-- Read an array cell; a missing cell is an out-of-bounds access. -/
def cell {α : Type} (l : List α) (i : Nat) : Res α :=
  match l[i]? with
  | some x => .ok x
  | none => .ub

/-- map.c:77-104 `rt_map_new`, with capacity `MAP_DEFAULT_CAPACITY` = 16 (map.h:6). -/
def new (zk : K) (zv : V) : Map K V := ⟨16, 0, List.replicate 16 0#64, List.replicate 16 zk, List.replicate 16 zv⟩

/-- A zero-initialised map variable (`n_map_t` of zeroes), initialised on the first assignment. -/
def zeroed : Map K V := ⟨0, 0, [], [], []⟩

/-- map.c:208-252 `rt_map_assign` after the growth test: returns the data index whose value cell is handed out. -/
def assignCore (o : KeyOps K I) (m : Map K V) (k : K) : Res (Map K V × Nat) :=
  (find o m.table m.cap m.keys k).bind fun h =>
  (word m.table h).bind fun w =>
  let d := if isSet w = false then m.len else if isDeleted w = true then m.len else dataIndex w
  let len := if isSet w = false then m.len + 1 else if isDeleted w = true then m.len + 1 else m.len
  if d < m.keys.length then
    .ok ({ m with len := len, table := m.table.set h (mkWord d), keys := m.keys.set d k }, d)
  else .ub

/-- The growth test of map.c:204; `(double)length + 1 > capacity * 0.75`, exact for lengths below 2^51. -/
def needGrow (len cap : Nat) : Prop := 4 * (len + 1) > 3 * cap

instance (len cap : Nat) : Decidable (needGrow len cap) := by unfold needGrow; infer_instance

/-- A store through the returned value pointer (`memmove` in map_grow, or the program's `m[k] = v`). -/
def storeVal (r : Map K V × Nat) (v : V) : Res (Map K V) :=
  if r.2 < r.1.vals.length then .ok { r.1 with vals := r.1.vals.set r.2 v } else .ub

/-- map.c:59-74, one round of the loop of `map_grow` for data index `d`.  The call to `rt_map_assign` would grow again if
its growth test held; that is not modelled and made `ub` here (it never happens, see the theorems). -/
def rehash (o : KeyOps K I) (old : Map K V) (m : Map K V) (d : Nat) : Res (Map K V) :=
  (cell old.keys d).bind fun k =>
  (find o old.table old.cap old.keys k).bind fun h =>
  (word old.table h).bind fun w =>
  if isDeleted w = true then .ok m
  else if needGrow m.len m.cap then .ub
  else
    (cell old.vals d).bind fun v =>
    (assignCore o m k).bind fun r => storeVal r v

/-- The loop of `map_grow`: data indices `d, d+1, ..., d+n-1`. -/
def rehashFrom (o : KeyOps K I) (old : Map K V) : Nat → Nat → Map K V → Res (Map K V)
  | 0, _, m => .ok m
  | n + 1, d, m => (rehash o old m d).bind fun m => rehashFrom o old n (d + 1) m

/-- map.c:42-75 `map_grow`.  The loop counter is an `int`: 2^31 or more entries overflow it. -/
def grow (o : KeyOps K I) (zk : K) (zv : V) (m : Map K V) : Res (Map K V) :=
  if m.len ≥ 2147483648 then .ub
  else
    rehashFrom o m m.len 0
      ⟨m.cap * 2, 0, List.replicate (m.cap * 2) 0#64, List.replicate (m.cap * 2) zk, List.replicate (m.cap * 2) zv⟩

/-- map.c:199-252 `rt_map_assign` (with `rt_map_init_if_needed`, 23-39), followed by the program's store of `v` into the
returned cell: `m[k] = v`. -/
def assign (o : KeyOps K I) (zk : K) (zv : V) (m : Map K V) (k : K) (v : V) : Res (Map K V) :=
  let m := if m.cap = 0 then new zk zv else m
  (if needGrow m.len m.cap then grow o zk zv m else .ok m).bind fun m =>
  (assignCore o m k).bind fun r => storeVal r v

/-- map.c:144-197 `rt_map_access`: the value, or the `key not found in map` error. -/
def access (o : KeyOps K I) (m : Map K V) (k : K) : Res V :=
  if m.cap = 0 then .throws
  else
    (find o m.table m.cap m.keys k).bind fun h =>
    (word m.table h).bind fun w =>
    if isSet w = false ∨ isDeleted w = true then .throws else cell m.vals (dataIndex w)

/-- map.c:326-353 `rt_map_contains`. -/
def contains (o : KeyOps K I) (m : Map K V) (k : K) : Res Bool :=
  if m.cap = 0 then .ok false
  else
    (find o m.table m.cap m.keys k).bind fun h =>
    (word m.table h).bind fun w =>
    if isSet w = false then .ok false else if isDeleted w = true then .ok false else .ok true

/-- map.c:279-294: `rt_map_delete` moves the last entry into the hole at `d`. -/
def moveLast (o : KeyOps K I) (m : Map K V) (d last : Nat) : Res (Map K V) :=
  (cell m.keys last).bind fun lk =>
  (cell m.vals last).bind fun lv =>
  (find o m.table m.cap m.keys lk).bind fun h =>
  (word m.table h).bind fun _ =>
  .ok { m with table := m.table.set h (mkWord d), keys := m.keys.set d lk, vals := m.vals.set d lv }

/-- map.c:259-310 `rt_map_delete`. -/
def delete (o : KeyOps K I) (zk : K) (zv : V) (m : Map K V) (k : K) : Res (Map K V) :=
  if m.cap = 0 then .ok m
  else
    (find o m.table m.cap m.keys k).bind fun h =>
    (word m.table h).bind fun w =>
    if isSet w = false ∨ isDeleted w = true then .ok m
    else
      (if dataIndex w ≠ m.len - 1 then moveLast o m (dataIndex w) (m.len - 1) else .ok m).bind fun m =>
      .ok { m with table := m.table.set h tomb, keys := m.keys.set (m.len - 1) zk, vals := m.vals.set (m.len - 1) zv,
                   len := m.len - 1 }

/-- nutils.c:500-548 `iterator_next_key` on a map: next cursor and the key, or `none` at the end (-1).  The assertion
`cursor < INT32_MAX` aborts. -/
def nextKey (m : Map K V) (cursor : Int) : Res (Option (Nat × K)) :=
  if cursor ≥ -1 ∧ cursor < 2147483647 then
    if cursor + 1 ≥ m.len then .ok none
    else (cell m.keys (cursor + 1).toNat).bind fun k => .ok (some ((cursor + 1).toNat, k))
  else .abort

/-- nutils.c:607-650 `iterator_take_value` on a map. -/
def takeValue (m : Map K V) (cursor : Nat) : Res V :=
  if cursor < m.len then cell m.vals cursor else .abort

/-- linear.c:1620-1690: `for k, v in m`, collecting the pairs (the body does not modify the map); `fuel` rounds. -/
def iterate (m : Map K V) : Nat → Int → Res (List (K × V))
  | 0, _ => .ok []
  | fuel + 1, cursor =>
    (nextKey m cursor).bind fun r =>
    match r with
    | none => .ok []
    | some (c, k) => (takeValue m c).bind fun v => (iterate m fuel c).bind fun rest => .ok ((k, v) :: rest)

end Nature.Map
