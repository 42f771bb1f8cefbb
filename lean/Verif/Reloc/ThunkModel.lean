import Verif.Reloc.ArmModel
/-!
# Range extension of arm64 branches (model)

Model of src/ld/ld_elf_thunk.c and of the functions of src/ld/ld_elf.c that plan, place and write thunks and patch the branches.
Arrays that only grow are functions with a count.  Simplifications: memory never runs out; live branch relocations come as one
list in the order of the loops, each with the index of its section's placement and the offset in it (`ld_elf_map_input_offset` is the
identity for code sections); the placement of all other output sections (`ld_elf_layout_outputs`) and the values of symbols are
unknown functions of the layout of the code; an error is `none` or `Err.failed`, without message.
-/
namespace Nature.Reloc.Thunk

/-- `ld_elf_input_placement_t`: does it go to .text, `sh_addralign`, `emitted_size`. -/
structure Placement where
  text : Bool
  align : Nat
  size : Nat

/-- `ld_elf_aarch64_thunk_key_t`, ld_elf_thunk.h:15-20. -/
structure Key where
  global : Option Nat
  object : Option Nat
  symbol : Nat
  addend : Int
deriving DecidableEq

/-- `ld_elf_aarch64_thunk_entry_t`, ld_elf_thunk.h:22-25. -/
structure Entry where
  key : Key
  used : Bool

/-- `ld_elf_aarch64_thunk_group_t`, ld_elf_thunk.h:27-36. -/
structure Group where
  start : Nat
  stop : Nat
  island : Nat
  first : Nat
  last : Nat
  entries : List Entry

/-- A live relocation CALL26 (283) or JUMP26 (282): its section's placement, the offset there, symbol and addend. -/
structure Branch where
  type : Nat
  placement : Nat
  offset : Nat
  object : Nat
  symbol : Nat
  addend : Int

/-- The layout of .text: offset of each placement (of those in other sections as well), size, whether thunks raised the alignment. -/
structure Lay where
  offset : Nat → Nat
  size : Nat
  aligned : Bool

/-- What `ld_elf_layout_outputs` decides: address of .text, addresses of the output sections of other placements, values of global and
of local symbols (`none`: an error). -/
structure Env where
  text : Nat
  other : Nat → Nat
  global : Nat → Option Nat
  local_ : Nat → Nat → Option Nat

/-- The input of the planning. -/
structure Input where
  placements : List Placement
  branches : List Branch
  /-- the global symbol a symbol of an object is resolved to, if it is global, has a name and is resolved -/
  resolved : Nat → Nat → Option Nat
  /-- offsets of the placements before the planning -/
  offset : Nat → Nat
  outputs : Lay → Option Env

/-- Outcomes other than success. -/
inductive Err | failed | notConverged
deriving DecidableEq

/-- Write to an array. -/
def put {α : Type} (f : Nat → α) (i : Nat) (v : α) : Nat → α := fun j => if j = i then v else f j

/-- `ld_elf_add_overflow`, ld_elf.c:201-205. -/
def addOverflow (a b : Nat) : Option Nat := if a > 2 ^ 64 - 1 - b then none else some (a + b)

/-- `ld_elf_add_signed`, ld_elf.c:207-216. -/
def addSigned (value : Nat) (addend : Int) : Option Nat :=
  if 0 ≤ addend then addOverflow value addend.toNat
  else
    let magnitude := (-(addend + 1)).toNat + 1
    if magnitude > value then none else some (value - magnitude)

/-- `ld_elf_align`, ld_elf.c:269-275; `x & ~mask` with a mask of low bits is written with the remainder. -/
def alignUp (value align : Nat) : Option Nat :=
  let align := if align = 0 then 1 else align
  let mask := align - 1
  if align &&& mask ≠ 0 ∨ value > 2 ^ 64 - 1 - mask then none else some ((value + mask) - (value + mask) % align)

/-- `LD_ELF_AARCH64_THUNK_GROUP_MAX`, ld_elf_thunk.h:11. -/
def groupMax : Nat := 0x500000
/-- `LD_ELF_AARCH64_THUNK_SIZE`, ld_elf_thunk.h:12. -/
def thunkSize : Nat := 12

/-- The groups, their number, and the group of each placement. -/
structure Groups where
  count : Nat
  at_ : Nat → Group
  of : Nat → Option Nat

/-- `ld_elf_aarch64_thunk_group_append`, ld_elf_thunk.c:35-58. -/
def groupAppend (g : Groups) (start i : Nat) : Option Groups :=
  if g.count ≥ 2 ^ 32 - 1 then none
  else some { g with count := g.count + 1, at_ := put g.at_ g.count ⟨start, start, start, i, i, []⟩ }

/-- One turn of the loop of `ld_elf_build_aarch64_thunk_groups`, ld_elf.c:1587-1628; the current group is always the newest. -/
def buildStep (i : Nat) (p : Placement) (start : Nat) (g : Groups) : Option Groups :=
  if !p.text then some { g with of := put g.of i none }
  else
    let fresh :=
      if g.count = 0 then some true
      else
        let cur := g.at_ (g.count - 1)
        if start < cur.start then none else some (decide (start - cur.start ≥ groupMax))
    fresh.bind fun fresh =>
      (if fresh then groupAppend g start i else some g).bind fun g =>
        (addOverflow start p.size).bind fun stop =>
          some { g with of := put g.of i (some (g.count - 1)),
                        at_ := put g.at_ (g.count - 1) { g.at_ (g.count - 1) with last := i, stop := stop } }

/-- The loop. -/
def buildLoop (offset : Nat → Nat) : Nat → List Placement → Groups → Option Groups
  | _, [], g => some g
  | i, p :: ps, g => (buildStep i p (offset i) g).bind (buildLoop offset (i + 1) ps)

/-- `ld_elf_build_aarch64_thunk_groups`, ld_elf.c:1582-1655 (the counting of branches is the length of the list). -/
def buildGroups (inp : Input) : Option Groups :=
  buildLoop inp.offset 0 inp.placements ⟨0, fun _ => ⟨0, 0, 0, 0, 0, []⟩, fun _ => none⟩

/-- State of the layout loop: the groups, the offsets, the cursor, "has thunks". -/
structure LaySt where
  groups : Groups
  offset : Nat → Nat
  cursor : Nat
  has : Bool

/-- One turn of the loop of `ld_elf_relayout_aarch64_text`, ld_elf.c:1663-1716. -/
def layStep (i : Nat) (p : Placement) (s : LaySt) : Option LaySt :=
  if !p.text then some s
  else
    match s.groups.of i with
    | none => none
    | some g =>
      if g ≥ s.groups.count then none
      else
        (alignUp s.cursor p.align).bind fun at_ =>
        (addOverflow at_ p.size).bind fun cursor =>
          let gr := s.groups.at_ g
          let gr := { gr with start := if i = gr.first then at_ else gr.start, stop := cursor }
          let offset := put s.offset i at_
          if i ≠ gr.last then some { s with groups := { s.groups with at_ := put s.groups.at_ g gr }, offset, cursor }
          else
            (if gr.entries.length ≠ 0 then alignUp cursor 4 else some cursor).bind fun island =>
            (addOverflow island (gr.entries.length * thunkSize)).bind fun cursor =>
              some { groups := { s.groups with at_ := put s.groups.at_ g { gr with island } }, offset, cursor,
                     has := s.has || decide (gr.entries.length ≠ 0) }

/-- The loop. -/
def layLoop : Nat → List Placement → LaySt → Option LaySt
  | _, [], s => some s
  | i, p :: ps, s => (layStep i p s).bind (layLoop (i + 1) ps)

/-- `ld_elf_relayout_aarch64_text`, ld_elf.c:1657-1721. -/
def relayout (inp : Input) (g : Groups) (lay : Lay) : Option (Groups × Lay) :=
  (layLoop 0 inp.placements ⟨g, lay.offset, 0, false⟩).bind fun s =>
    some (s.groups, ⟨s.offset, s.cursor, lay.aligned || s.has⟩)

/-- `ld_elf_aarch64_thunk_key`, ld_elf.c:3978-3993. -/
def keyOf (inp : Input) (b : Branch) : Key :=
  match inp.resolved b.object b.symbol with
  | some g => ⟨some g, none, 0, b.addend⟩
  | none => ⟨none, some b.object, b.symbol, b.addend⟩

/-- `ld_elf_relocation_symbol_value`, ld_elf.c:3827-3845, as far as it matters here: a resolved global symbol has the value of the
global. -/
def symbolValue (inp : Input) (e : Env) (object symbol : Nat) : Option Nat :=
  match inp.resolved object symbol with
  | some g => e.global g
  | none => e.local_ object symbol

/-- `ld_elf_aarch64_branch_addresses`, ld_elf.c:3900-3975: place and target. -/
def branchAddresses (inp : Input) (lay : Lay) (e : Env) (b : Branch) : Option (Nat × Nat) :=
  match inp.placements[b.placement]? with
  | none => none
  | some p =>
    if p.size < b.offset + 4 then none
    else
      (addOverflow (lay.offset b.placement) b.offset).bind fun outputOffset =>
      (addOverflow (if p.text then e.text else e.other b.placement) outputOffset).bind fun place =>
      (symbolValue inp e b.object b.symbol).bind fun s =>
      (addSigned s b.addend).bind fun target =>
        if place % 4 ≠ 0 ∨ target % 4 ≠ 0 then none else some (place, target)

/-- `ld_elf_aarch64_branch26_fits`, ld_elf_thunk.c:103-117. -/
def branch26Fits (target place : Nat) : Bool :=
  if target % 4 ≠ 0 ∨ place % 4 ≠ 0 then false
  else if target ≥ place then decide (target - place ≤ 0x07fffffc)
  else decide (place - target ≤ 0x08000000)

/-- The search of `ld_elf_aarch64_thunk_entry_find_or_add`, ld_elf_thunk.c:73-80. -/
def findEntry (entries : List Entry) (key : Key) : Nat → Option Nat
  | i => match entries with
    | [] => none
    | e :: es => if e.key = key then some i else findEntry es key (i + 1)

/-- `ld_elf_aarch64_thunk_entry_find_or_add`, ld_elf_thunk.c:68-101: the entries, the index, "added". -/
def findOrAdd (entries : List Entry) (key : Key) : Option (List Entry × Nat × Bool) :=
  match findEntry entries key 0 with
  | some i => some (entries, i, false)
  | none =>
    if entries.length ≥ 2 ^ 32 - 1 then none
    else some (entries ++ [⟨key, false⟩], entries.length, true)

/-- State of the scan: groups, entry index of each branch, "added any". -/
structure ScanSt where
  groups : Groups
  index : Nat → Option Nat
  added : Bool

/-- One turn of the inner loop of `ld_elf_plan_aarch64_thunks`, ld_elf.c:4121-4168. -/
def scanStep (inp : Input) (lay : Lay) (e : Env) (k : Nat) (b : Branch) (s : ScanSt) : Option ScanSt :=
  (branchAddresses inp lay e b).bind fun (place, target) =>
    if branch26Fits target place then some s
    else
      match s.groups.of b.placement with
      | none => none
      | some g =>
        if g ≥ s.groups.count then none
        else (findOrAdd (s.groups.at_ g).entries (keyOf inp b)).bind fun (entries, i, added) =>
          some { groups := { s.groups with at_ := put s.groups.at_ g { s.groups.at_ g with entries } },
                 index := put s.index k (some i), added := s.added || added }

/-- The loop. -/
def scanLoop (inp : Input) (lay : Lay) (e : Env) : Nat → List Branch → ScanSt → Option ScanSt
  | _, [], s => some s
  | k, b :: bs, s => (scanStep inp lay e k b s).bind (scanLoop inp lay e (k + 1) bs)

/-- `ld_elf_aarch64_thunk_address`, ld_elf.c:3995-4019. -/
def thunkAddress (g : Groups) (e : Env) (group entry : Nat) : Option Nat :=
  if group ≥ g.count then none
  else if entry ≥ (g.at_ group).entries.length then none
  else (addOverflow (g.at_ group).island (entry * thunkSize)).bind fun o => addOverflow e.text o

/-- `entries[i].used = true`. -/
def markUsed : List Entry → Nat → List Entry
  | [], _ => []
  | e :: es, 0 => { e with used := true } :: es
  | e :: es, i + 1 => e :: markUsed es i

/-- One turn of the loop of `ld_elf_validate_aarch64_thunks`, ld_elf.c:4038-4094. -/
def validateStep (inp : Input) (lay : Lay) (e : Env) (index : Nat → Option Nat) (k : Nat) (b : Branch) (g : Groups) : Option Groups :=
  (branchAddresses inp lay e b).bind fun (place, target) =>
    if branch26Fits target place then some g
    else
      match g.of b.placement, index k with
      | some group, some entry =>
        if group ≥ g.count then none
        else if entry ≥ (g.at_ group).entries.length then none
        else (thunkAddress g e group entry).bind fun a =>
          if branch26Fits a place then
            some { g with at_ := put g.at_ group { g.at_ group with entries := markUsed (g.at_ group).entries entry } }
          else none
      | _, _ => none

/-- The loop. -/
def validateLoop (inp : Input) (lay : Lay) (e : Env) (index : Nat → Option Nat) : Nat → List Branch → Groups → Option Groups
  | _, [], g => some g
  | k, b :: bs, g => (validateStep inp lay e index k b g).bind (validateLoop inp lay e index (k + 1) bs)

/-- `ld_elf_validate_aarch64_thunks`, ld_elf.c:4021-4098. -/
def validate (inp : Input) (lay : Lay) (e : Env) (index : Nat → Option Nat) (g : Groups) : Option Groups :=
  validateLoop inp lay e index 0 inp.branches
    { g with at_ := fun i => { g.at_ i with entries := (g.at_ i).entries.map fun x => { x with used := false } } }

/-- The result of the planning. -/
structure Plan where
  groups : Groups
  index : Nat → Option Nat
  lay : Lay
  env : Env

/-- The iterations of `ld_elf_plan_aarch64_thunks`, ld_elf.c:4111-4175. -/
def planLoop (inp : Input) : Nat → Groups → (Nat → Option Nat) → Lay → Except Err Plan
  | 0, _, _, _ => .error .notConverged
  | n + 1, g, index, lay =>
    match relayout inp g lay with
    | none => .error .failed
    | some (g, lay) =>
      match inp.outputs lay with
      | none => .error .failed
      | some e =>
        match scanLoop inp lay e 0 inp.branches ⟨g, index, false⟩ with
        | none => .error .failed
        | some s =>
          if s.added then planLoop inp n s.groups s.index lay
          else
            match validate inp lay e s.index s.groups with
            | none => .error .failed
            | some g => .ok ⟨g, s.index, lay, e⟩

/-- `ld_elf_plan_aarch64_thunks`, ld_elf.c:4100-4176. -/
def plan (inp : Input) : Except Err Plan :=
  match buildGroups inp with
  | none => .error .failed
  | some g => planLoop inp (inp.branches.length + 1) g (fun _ => none) ⟨inp.offset, 0, false⟩

/-- `ld_elf_aarch64_thunk_encode`, ld_elf_thunk.c:119-151; `none` for both errors. -/
def encode (thunk target : Nat) : Option Bytes :=
  if thunk % 4 ≠ 0 ∨ target % 4 ≠ 0 then none
  else
    let thunkPage := thunk / 4096
    let targetPage := target / 4096
    let delta :=
      if targetPage ≥ thunkPage then
        if targetPage - thunkPage > 0xfffff then none else some (((targetPage - thunkPage : Nat) : Int))
      else if thunkPage - targetPage > 0x100000 then none else some (-((thunkPage - targetPage : Nat) : Int))
    delta.bind fun delta =>
      let pages := BitVec.ofInt 32 delta &&& 0x1fffff#32
      let adrp := 0x90000010#32 ||| ((pages &&& 3#32) <<< 29) ||| (((pages >>> 2) &&& 0x7ffff#32) <<< 5)
      let add := 0x91000210#32 ||| (BitVec.ofNat 32 (target % 4096) <<< 10)
      some (writeU32 [] adrp ++ writeU32 [] add ++ writeU32 [] 0xd61f0200#32)

/-- Three no-ops, ld_elf.c:4238-4240. -/
def nops : Bytes := writeU32 [] 0xd503201f#32 ++ writeU32 [] 0xd503201f#32 ++ writeU32 [] 0xd503201f#32

/-- `ld_elf_aarch64_thunk_target`, ld_elf.c:4178-4208. -/
def thunkTarget (inp : Input) (e : Env) (key : Key) : Option Nat :=
  (match key.global with
    | some g => e.global g
    | none =>
      match key.object with
      | none => none
      | some o => symbolValue inp e o key.symbol).bind fun s => addSigned s key.addend

/-- One turn of the inner loop of `ld_elf_emit_aarch64_thunks`, ld_elf.c:4224-4267, on the bytes of .text. -/
def emitStep (inp : Input) (p : Plan) (slot : Nat × Nat) (data : Bytes) : Option Bytes :=
  let group := p.groups.at_ slot.1
  (addOverflow group.island (slot.2 * thunkSize)).bind fun o =>
    if o > p.lay.size ∨ thunkSize > p.lay.size - o then none
    else
      match group.entries[slot.2]? with
      | none => none
      | some entry =>
        (if !entry.used then some nops
        else
          (thunkAddress p.groups p.env slot.1 slot.2).bind fun a =>
            (thunkTarget inp p.env entry.key).bind fun t => encode a t).bind fun bytes =>
          some (data.take o ++ bytes ++ data.drop (o + thunkSize))

/-- Groups and entries in the order of the loops. -/
def slots (p : Plan) : List (Nat × Nat) :=
  (List.range p.groups.count).flatMap fun g => (List.range (p.groups.at_ g).entries.length).map fun e => (g, e)

/-- `ld_elf_emit_aarch64_thunks`, ld_elf.c:4210-4271. -/
def emit (inp : Input) (p : Plan) (data : Bytes) : Option Bytes :=
  (slots p).foldlM (fun d s => emitStep inp p s d) data

/-- The arm64 branch part of `ld_elf_apply_relocations`, ld_elf.c:5660-5722, for a branch in .text: patch it or send it to its
thunk. -/
def applyStep (inp : Input) (p : Plan) (k : Nat) (b : Branch) (data : Bytes) : Option Bytes :=
  match inp.placements[b.placement]? with
  | none => none
  | some pl =>
    if !pl.text then some data
    else if pl.size < b.offset + 4 then none
    else
      (addOverflow (p.lay.offset b.placement) b.offset).bind fun o =>
        if o > p.lay.size then none
        else
          let place := (p.env.text + o) % 2 ^ 64
          (symbolValue inp p.env b.object b.symbol).bind fun s =>
          (addSigned s b.addend).bind fun target =>
            let vals (v : Nat) : Vals := ⟨place, v, 0, 0, 0, 0, 0, 0⟩
            (if !branch26Fits target place then
              match p.groups.of b.placement, p.index k with
              | some g, some i =>
                if g ≥ p.groups.count then none
                else (thunkAddress p.groups p.env g i).bind fun a => Arm.apply b.type (vals a) 0 (data.drop o)
              | _, _ => none
            else Arm.apply b.type (vals s) b.addend (data.drop o)).bind fun new => some (data.take o ++ new)

/-- The loop over all branches. -/
def applyLoop (inp : Input) (p : Plan) : Nat → List Branch → Bytes → Option Bytes
  | _, [], d => some d
  | k, b :: bs, d => (applyStep inp p k b d).bind (applyLoop inp p (k + 1) bs)

/-- Thunks are written and then branches patched, ld_elf.c:7391-7393, on the bytes of .text. -/
def write (inp : Input) (p : Plan) (data : Bytes) : Option Bytes :=
  (emit inp p data).bind (applyLoop inp p 0 inp.branches)

end Nature.Reloc.Thunk
