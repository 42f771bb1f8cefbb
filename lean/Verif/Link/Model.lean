import Verif.Link.Input

/-!
# Model of symbol resolution and of the extraction of archive members

`/repo/src/ld/ld_elf.c:803-1032` and `1170-1182`.  Not modelled: sections that are discarded
(groups, `SHF_EXCLUDE`), the merging of CIEs of `.eh_frame`, and the symbols the linker itself
provides; an object is given by its global symbols that have a name, and an undefined symbol by
whether `ld_elf_symbol_has_live_reference` holds for it.  The table of globals is a function from names; a
name that is not in it has a record of zeros.  Allocation is assumed to succeed.
-/

namespace Nature.Link

/-- `ld_elf_global_t`, the fields used in ld_elf.c:823-1032. -/
structure Global where
  definition : Option Pos := none
  definitionWeak : Bool := false
  common : Bool := false
  commonTls : Bool := false
  commonReference : Bool := false
  commonSize : Nat := 0
  commonAlign : Nat := 0
  strongReference : Bool := false
  entryReference : Bool := false
  deriving DecidableEq, Repr

/-- The errors of ld_elf.c:838-841, 872-875 and 1178-1179; `endless` is a loop that does not end. -/
inductive Err where
  | tlsConflict (name : String)
  | duplicate (name : String)
  | undefinedSymbol (name : String)
  | endless
  deriving DecidableEq, Repr

/-- `ld_elf_record_definition`, ld_elf.c:832-876. -/
def recordDefinition (g : Global) (p : Pos) (s : Sym) : Except Err Global :=
  match s.kind with
  | .undefined _ => .ok g
  | .common size value tls =>
    if g.definition.isNone then
      if g.common ∧ g.commonTls ≠ tls then .error (.tlsConflict s.name)
      else
        let align := if value ≠ 0 then value else 1
        .ok { g with
          common := true, commonTls := tls,
          commonReference := if !s.weak then true else g.commonReference,
          commonSize := if size > g.commonSize then size else g.commonSize,
          commonAlign := if align > g.commonAlign then align else g.commonAlign }
    else .ok g
  | .regular =>
    if g.definition.isNone then
      .ok { g with definition := some p, definitionWeak := s.weak, common := false, commonTls := false }
    else if g.definitionWeak ∧ !s.weak then
      .ok { g with definition := some p, definitionWeak := false, common := false, commonTls := false }
    else if !g.definitionWeak ∧ s.weak then .ok g
    else if g.definitionWeak ∧ s.weak then .ok g
    else .error (.duplicate s.name)

/-- The table of globals, `ld_elf_global_get`. -/
abbrev Table := String → Global

/-- A record of the table is replaced. -/
def Table.set (t : Table) (name : String) (g : Global) : Table := fun n => if n = name then g else t n

/-- The symbols of an object with their positions: the loops over `j`, ld_elf.c:947, 888, 1001. -/
def symsFrom (i : Nat) : Nat → List Sym → List (Pos × Sym)
  | _, [] => []
  | j, s :: ss => ((i, j), s) :: symsFrom i (j + 1) ss

/-- The symbols of the objects for which `p` holds: the loops over `i`, ld_elf.c:944-946, 879-881,
998-1000. -/
def entriesFrom (p : Nat → Obj → Bool) : Nat → List Obj → List (Pos × Sym)
  | _, [] => []
  | i, o :: os => (if p i o then symsFrom i 0 o.syms else []) ++ entriesFrom p (i + 1) os

/-- `if (!object->selected) continue;`. -/
def entries (objs : List Obj) (sel : Nat → Bool) : List (Pos × Sym) :=
  entriesFrom (fun i _ => sel i) 0 objs

/-- One step of ld_elf.c:944-961. -/
def define (t : Table) (e : Pos × Sym) : Except Err Table :=
  match recordDefinition (t e.2.name) e.1 e.2 with
  | .error err => .error err
  | .ok g => .ok (t.set e.2.name g)

/-- ld_elf.c:944-961. -/
def defineAll : Table → List (Pos × Sym) → Except Err Table
  | t, [] => .ok t
  | t, e :: es =>
    match define t e with
    | .error err => .error err
    | .ok t' => defineAll t' es

/-- One step of `ld_elf_record_undefined_references`, ld_elf.c:888-906. -/
def reference (t : Table) (e : Pos × Sym) : Table :=
  match e.2.kind with
  | .undefined true =>
    if !e.2.weak then t.set e.2.name { t e.2.name with strongReference := true } else t
  | _ => t

/-- `ld_elf_rebuild_globals`, ld_elf.c:933-990, with `ld_elf_record_entry_reference`,
ld_elf.c:911-931.  The references are recorded twice there; the second time after the flags
have been cleared. -/
def rebuild (objs : List Obj) (entry : String) (sel : Nat → Bool) : Except Err Table :=
  match defineAll (fun _ => {}) (entries objs sel) with
  | .error err => .error err
  | .ok t =>
    let t := (entries objs sel).foldl reference t
    .ok (t.set entry { t entry with strongReference := true, entryReference := true })

/-- The rank of a symbol of an archive member, if it is a reason to take it, ld_elf.c:1004-1020. -/
def rank (t : Table) (s : Sym) : Option Nat :=
  let g := t s.name
  match s.kind with
  | .undefined _ => none
  | k =>
    let isCommon : Bool := k != .regular
    let overrides : Bool := g.common && g.commonReference && !isCommon
    if !g.strongReference && !overrides then none
    else if g.definition.isSome && !g.common then none
    else some (if isCommon then 2 else if s.weak then 1 else 0)

/-- The best object so far, ld_elf.c:1021-1024. -/
def pick (t : Table) (best : Option (Nat × Nat)) (e : Pos × Sym) : Option (Nat × Nat) :=
  match rank t e.2 with
  | none => best
  | some r =>
    match best with
    | none => some (e.1.1, r)
    | some (i, r') => if r < r' then some (e.1.1, r) else some (i, r')

/-- `ld_elf_extract_archives`, ld_elf.c:992-1032.  `fuel` bounds the rounds. -/
def extract (objs : List Obj) (entry : String) : Nat → (Nat → Bool) →
    Except Err ((Nat → Bool) × Table)
  | 0, _ => .error .endless
  | fuel + 1, sel =>
    match rebuild objs entry sel with
    | .error err => .error err
    | .ok t =>
      match (entriesFrom (fun i o => o.isLazy && !sel i) 0 objs).foldl (pick t) none with
      | none =>
        match rebuild objs entry sel with
        | .error err => .error err
        | .ok t => .ok (sel, t)
      | some (i, _) => extract objs entry fuel fun k => if k = i then true else sel k

/-- `ld_elf_check_undefined`, ld_elf.c:1170-1182.  The names with a strong reference are those of
symbols. -/
def missing (t : Table) (e : Pos × Sym) : Bool :=
  let g := t e.2.name
  g.strongReference && !g.entryReference && !g.definition.isSome && !g.common

/-- The beginning of `ld_elf_link_loaded`, ld_elf.c:7372-7379.  At first the objects of the command
line are selected, ld_elf_input.c:1470-1471. -/
def link (objs : List Obj) (entry : String) : Except Err ((Nat → Bool) × Table) :=
  match extract objs entry (objs.length + 1) (fun i => match objs[i]? with
      | some o => !o.isLazy
      | none => false) with
  | .error err => .error err
  | .ok (sel, t) =>
    match (entries objs sel).find? (missing t) with
    | some e => .error (.undefinedSymbol e.2.name)
    | none => .ok (sel, t)

end Nature.Link
