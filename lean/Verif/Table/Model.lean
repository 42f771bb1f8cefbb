/-
The dictionaries of the compiler: utils/table.c, utils/table.h.
-/
namespace Nature.Table

/-- A key: a C string without its final zero. -/
abbrev Key := List UInt8

/-- utils/table.h:9-12: an entry.  Key and value NULL: `empty`; key NULL and another value: `tomb`, left by a deletion. -/
inductive Slot (V : Type) where
  | empty
  | tomb
  | full (k : Key) (v : V)
deriving DecidableEq, Repr

/-- utils/table.h:14-18.  `capacity` is the length of `entries`. -/
structure T (V : Type) where
  count : Nat
  entries : List (Slot V)
deriving DecidableEq, Repr

variable {V : Type}

/-- utils/table.c:5-9, 110-114 (`table_init`, `table_new`). -/
def new : T V := ⟨0, []⟩

/-- utils/helper.h:272-290 (`hash_data`, `hash_string`). -/
def hashString (k : Key) : UInt32 :=
  if k = [] then 0 else k.foldl (fun h b => (h ^^^ b.toUInt32) * 16777619) 2166136261

/-- utils/table.c:82-107: the loop of `table_find_entry`.  `none`: the loop does not end (all the entries have been passed). -/
def findFrom (es : List (Slot V)) (key : Key) : (fuel index : Nat) → (tombstone : Option Nat) → Option Nat
  | 0, _, _ => none
  | f + 1, i, tb =>
    match es[i]? with
    | none => none
    | some .empty => some (tb.getD i)
    | some .tomb => findFrom es key f ((i + 1) % es.length) (match tb with | none => some i | some t => some t)
    | some (.full k _) => if k = key then some i else findFrom es key f ((i + 1) % es.length) tb

/-- utils/table.c:77-108 (`table_find_entry`): the index of the entry.  `h` stands for `hash_string`. -/
def find (h : Key → UInt32) (es : List (Slot V)) (key : Key) : Option Nat :=
  if es.length = 0 then none else findFrom es key es.length ((h key).toNat % es.length) none

/-- utils/table.c:12-25 (`table_get`). The outer `none`: it does not return. -/
def get (h : Key → UInt32) (t : T V) (key : Key) : Option (Option V) :=
  if t.count = 0 then some none
  else do
    let i ← find h t.entries key
    match t.entries[i]? with
    | some (.full _ v) => some (some v)
    | _ => some none

/-- utils/table.c:53-65: the loop of `table_adjust`: what is in use is entered again; deleted entries are dropped. -/
def reinsert (h : Key → UInt32) : List (Slot V) → T V → Option (T V)
  | [], t => some t
  | .full k v :: rest, t => do
    let i ← find h t.entries k
    reinsert h rest ⟨t.count + 1, t.entries.set i (.full k v)⟩
  | _ :: rest, t => reinsert h rest t

/-- utils/table.c:48-71 (`table_adjust`). -/
def adjust (h : Key → UInt32) (t : T V) (capacity : Nat) : Option (T V) :=
  reinsert h t.entries ⟨0, List.replicate capacity .empty⟩

/-- utils/helper.h:202 (`GROW_CAPACITY`). -/
def grow (c : Nat) : Nat := if c < 8 then 8 else c * 2

/-- utils/table.c:29-32: the table gets a larger capacity when it would be more than three quarters full.  The sizes stay below
the limits of `int`. -/
def room (h : Key → UInt32) (t : T V) : Option (T V) :=
  if 3 * t.entries.length < 4 * (t.count + 1) then adjust h t (grow t.entries.length) else some t

/-- utils/table.c:36-39: an entry that was neither in use nor deleted is counted. -/
def counted (s : Option (Slot V)) (n : Nat) : Nat :=
  match s with
  | some .empty => n + 1
  | _ => n

/-- utils/table.c:27-46 (`table_set`). -/
def set (h : Key → UInt32) (t : T V) (key : Key) (v : V) : Option (T V) := do
  let t ← room h t
  let i ← find h t.entries key
  some ⟨counted t.entries[i]? t.count, t.entries.set i (.full key v)⟩

/-- utils/table.c:134-146 (`table_delete`). -/
def delete (h : Key → UInt32) (t : T V) (key : Key) : Option (T V) :=
  if t.count = 0 then some t
  else do
    let i ← find h t.entries key
    match t.entries[i]? with
    | some (.full _ _) => some ⟨t.count, t.entries.set i .tomb⟩
    | _ => some t

end Nature.Table
