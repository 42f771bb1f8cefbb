import Verif.Map.Refine
/-! Model of the runtime hash set, runtime/nutils/set.c, and its specification. -/
namespace Nature.Map
open Nature

/-- `n_set_t` (utils/type.h), without the type hash. -/
structure HSet (K : Type) where
  cap : Nat
  len : Nat
  table : List Word
  keys : List K

variable {K I : Type} [DecidableEq I]

/-- set.c:100-119 `rt_set_new`, capacity `SET_DEFAULT_CAPACITY` = 100 (set.h:10). -/
def setNew (zk : K) : HSet K := ⟨100, 0, List.replicate 100 0#64, List.replicate 100 zk⟩

/-- A zero-initialised set variable. -/
def setZeroed : HSet K := ⟨0, 0, [], []⟩

/-- set.c:26-59 `_rt_set_add`: the new set and whether an element was added. -/
def addCore (o : KeyOps K I) (s : HSet K) (k : K) : Res (HSet K × Bool) :=
  (find o s.table s.cap s.keys k).bind fun h =>
  (word s.table h).bind fun w =>
  let d := if isSet w = false then s.len else dataIndex w
  let added := if isSet w = false then true else if isDeleted w = true then true else false
  let len := if added = true then s.len + 1 else s.len
  if d < s.keys.length then
    .ok ({ s with len := len, table := s.table.set h (mkWord d), keys := s.keys.set d k }, added)
  else .ub

/-- set.c:83-97, one round of the loop of `rt_set_grow` for data index `d`. -/
def setRehash (o : KeyOps K I) (old s : HSet K) (d : Nat) : Res (HSet K) :=
  (cell old.keys d).bind fun k =>
  (find o old.table old.cap old.keys k).bind fun h =>
  (word old.table h).bind fun w =>
  if isDeleted w = true then .ok s
  else (addCore o s k).bind fun r => .ok r.1

/-- The loop of `rt_set_grow`. -/
def setRehashFrom (o : KeyOps K I) (old : HSet K) : Nat → Nat → HSet K → Res (HSet K)
  | 0, _, s => .ok s
  | n + 1, d, s => (setRehash o old s d).bind fun s => setRehashFrom o old n (d + 1) s

/-- set.c:61-98 `rt_set_grow`; the loop counter is an `int`. -/
def setGrow (o : KeyOps K I) (zk : K) (s : HSet K) : Res (HSet K) :=
  if s.len ≥ 2147483648 then .ub
  else setRehashFrom o s s.len 0 ⟨s.cap * 2, 0, List.replicate (s.cap * 2) 0#64, List.replicate (s.cap * 2) zk⟩

/-- set.c:133-147 `rt_set_add` with `rt_set_init_if_needed` (9-23). -/
def setAdd (o : KeyOps K I) (zk : K) (s : HSet K) (k : K) : Res (HSet K × Bool) :=
  let s := if s.cap = 0 then setNew zk else s
  (if needGrow s.len s.cap then setGrow o zk s else .ok s).bind fun s => addCore o s k

/-- set.c:155-179 `rt_set_contains`. -/
def setContains (o : KeyOps K I) (s : HSet K) (k : K) : Res Bool :=
  if s.cap = 0 then .ok false
  else
    (find o s.table s.cap s.keys k).bind fun h =>
    (word s.table h).bind fun w =>
    if isSet w = false then .ok false else if isDeleted w = true then .ok false else .ok true

/-- set.c:181-189 `rt_set_delete`: the word is ANDed with the deleted flag and the length decremented (modulo 2^64)
whether or not the key was found. -/
def setDelete (o : KeyOps K I) (s : HSet K) (k : K) : Res (HSet K) :=
  if s.cap = 0 then .ok s
  else
    (find o s.table s.cap s.keys k).bind fun h =>
    (word s.table h).bind fun w =>
    .ok { s with table := s.table.set h (w &&& (1#64 <<< 62)), len := (s.len + 18446744073709551615) % 18446744073709551616 }

inductive SetOp (K : Type) where
  | add (k : K)
  | delete (k : K)
  | contains (k : K)

/-- Answers of a program using a set. -/
inductive SetOut where
  | bool (b : Bool)
  | unit
  | abort
  | ub
  deriving DecidableEq, Repr

/-- Specification: a finite set, as the list of its members. -/
def setSpecRun [DecidableEq K] : List K → List (SetOp K) → List SetOut
  | _, [] => []
  | s, .add k :: ops => .bool (decide (k ∉ s)) :: setSpecRun (if k ∈ s then s else k :: s) ops
  | s, .delete k :: ops => .unit :: setSpecRun (s.filter (fun x => decide (x ≠ k))) ops
  | s, .contains k :: ops => .bool (decide (k ∈ s)) :: setSpecRun s ops

/-- The runtime on the same program. -/
def setImplRun (o : KeyOps K I) (zk : K) : HSet K → List (SetOp K) → List SetOut
  | _, [] => []
  | s, .add k :: ops =>
    match setAdd o zk s k with
    | .ok r => .bool r.2 :: setImplRun o zk r.1 ops
    | .ub => [.ub]
    | _ => [.abort]
  | s, .delete k :: ops =>
    match setDelete o s k with
    | .ok s => .unit :: setImplRun o zk s ops
    | .ub => [.ub]
    | _ => [.abort]
  | s, .contains k :: ops =>
    match setContains o s k with
    | .ok b => .bool b :: setImplRun o zk s ops
    | .ub => [.ub]
    | _ => [.abort]

end Nature.Map
