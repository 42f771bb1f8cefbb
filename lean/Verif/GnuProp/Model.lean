import Verif.GnuProp.Spec

/-!
# Model of the merging of properties

`/repo/src/ld/ld_elf_property.c`, without the bytes of notes: a note is the list of the properties in it, in
order, and the output is a list of properties.  Allocation succeeds, and sizes do not overflow.
-/

namespace Nature.GnuProp

/-- `ld_elf_property_merge_t`, ld_elf_property.c:9-14. -/
inductive Merge where
  | and | or | max | present
  deriving DecidableEq, Repr

/-- `struct ld_elf_property_entry`, ld_elf_property.c:16-21. -/
structure Entry where
  type : Nat
  size : Nat
  value : Nat
  merge : Merge
  deriving DecidableEq, Repr

/-- Errors. -/
inductive Err where
  | duplicate (type : Nat)
  | unsupported (type : Nat)
  | invalid (type : Nat)
  deriving DecidableEq, Repr

/-- `ld_elf_property_semantics`, ld_elf_property.c:99-141: the expected size and the way to merge; `none` for
an unknown type. -/
def kind (arch : Arch) (t : Nat) : Option (Nat × Merge) :=
  if t = 1 then some (8, .max)
  else if t = 2 then some (0, .present)
  else if t ≥ 0xb0000000 ∧ t ≤ 0xb0007fff then some (4, .and)
  else if t ≥ 0xb0008000 ∧ t ≤ 0xb000ffff then some (4, .or)
  else if arch = .arm64 ∧ t = 0xc0000000 then some (4, .and)
  else if arch = .amd64 ∧ t = 0xc0000002 then some (4, .and)
  else if arch = .amd64 ∧ (t = 0xc0008001 ∨ t = 0xc0008002 ∨ t = 0xc0010001 ∨ t = 0xc0010002) then
    some (4, .or)
  else none

/-- `ld_elf_property_find`, ld_elf_property.c:89-97. -/
def find (es : List Entry) (t : Nat) : Option Entry := es.find? fun e => e.type = t

/-- The loop of `ld_elf_property_parse_descriptor`, ld_elf_property.c:150-212, over decoded properties. -/
def descriptor (arch : Arch) : List Property → List Entry → Except Err (List Entry)
  | [], acc => .ok acc
  | p :: ps, acc =>
    if (find acc p.type).isSome then .error (.duplicate p.type)
    else
      match kind arch p.type with
      | none => .error (.unsupported p.type)
      | some (size, merge) =>
        if p.size ≠ size then .error (.invalid p.type)
        else
          descriptor arch ps
            (acc ++ [⟨p.type, p.size, if p.size = 8 ∨ p.size = 4 then p.value else 1, merge⟩])

/-- The second loop of `ld_elf_property_parse_descriptor`, ld_elf_property.c:222-230. -/
def keepFirst (object new : List Entry) : List Entry :=
  new.foldl (fun acc e => if (find acc e.type).isSome then acc else acc ++ [e]) object

/-- The loop over the notes of an object, ld_elf_property.c:237-301 and 322-329. -/
def parse (arch : Arch) : List (List Property) → List Entry → Except Err (List Entry)
  | [], object => .ok object
  | note :: notes, object =>
    match descriptor arch note [] with
    | .error err => .error err
    | .ok new => parse arch notes (keepFirst object new)

/-- ld_elf_property.c:359-373. -/
def combine (m : Merge) (a b : Nat) : Nat :=
  match m with
  | .and => a &&& b
  | .or => a ||| b
  | .max => if b > a then b else a
  | .present => 1

/-- ld_elf_property.c:338-374: one property of an object. -/
def mergeOne (count : Nat) : List Entry → Entry → List Entry
  | [], e => [if e.merge = .and ∧ count ≠ 0 then { e with value := 0 } else e]
  | x :: xs, e =>
    if x.type = e.type then { x with value := combine x.merge x.value e.value } :: xs
    else x :: mergeOne count xs e

/-- ld_elf_property.c:330-337: what an object does not have, the program does not have. -/
def clear (object : List Entry) (plan : List Entry) : List Entry :=
  plan.map fun e => if e.merge = .and ∧ (find object e.type).isNone then { e with value := 0 } else e

/-- `ld_elf_property_add_object`, ld_elf_property.c:318-385: the entries and the number of objects. -/
def addObject (arch : Arch) (plan : List Entry × Nat) (notes : List (List Property)) :
    Except Err (List Entry × Nat) :=
  match parse arch notes [] with
  | .error err => .error err
  | .ok object => .ok (object.foldl (mergeOne plan.2) (clear object plan.1), plan.2 + 1)

/-- All selected objects, `ld_elf_prepare_gnu_property`, ld_elf.c:1259-1360; one without notes counts too. -/
def addAll (arch : Arch) : List (List (List Property)) → List Entry × Nat → Except Err (List Entry × Nat)
  | [], plan => .ok plan
  | o :: os, plan =>
    match addObject arch plan o with
    | .error err => .error err
    | .ok plan => addAll arch os plan

/-- A place for an entry in a sorted list. -/
def insert (e : Entry) : List Entry → List Entry
  | [] => [e]
  | x :: xs => if e.type ≤ x.type then e :: x :: xs else x :: insert e xs

/-- `qsort` with `ld_elf_property_compare_entries`, ld_elf_property.c:387-394: as types are distinct, all ways
to sort give the same. -/
def sort (es : List Entry) : List Entry := es.foldr insert []

/-- `ld_elf_property_finalize`, ld_elf_property.c:396-459: the properties of the program, sorted by type. -/
def finalize (plan : List Entry) : List Property :=
  ((sort plan).filter fun e => e.merge = .present || e.value ≠ 0).map fun e => ⟨e.type, e.size, e.value⟩

/-- The properties of a program of objects. -/
def link (arch : Arch) (objects : List (List (List Property))) : Except Err (List Property) :=
  match addAll arch objects ([], 0) with
  | .error err => .error err
  | .ok plan => .ok (finalize plan.1)

end Nature.GnuProp
