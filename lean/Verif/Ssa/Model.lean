/-
Model of the conversion of a function to static single assignment form: /repo/src/ssa.c.

A function is a list of basic blocks, numbered by their position (cfg.c:483-486), the first being the entry.  An operation is
reduced to the variables it reads and writes, in the order in which `extract_var_operands` yields them, and a number that
stands for everything else about it.  Variables are numbers; the names `x.s4` made by renaming are pairs of variable and
number.  Labels are left out.  `none` is every way of not succeeding: a failed assertion, an access outside an array, a null
pointer, or (for the loops that run to a fixed point, given as functions of the number of rounds) too few rounds.
-/
namespace Nature.Ssa

/-- Variables and blocks are numbers. -/
scoped notation "Var" => Nat
scoped notation "Blk" => Nat

/-- src/lir.h: `lir_op_t`, as described above, over variables (`K = Var`) or renamed variables (`K = Var × Nat`). -/
structure Instr (K : Type) where
  uses : List K
  defs : List K
  code : Nat
deriving DecidableEq, Repr

abbrev Op := Instr Var
abbrev ROp := Instr (Var × Nat)

/-- src/lir.h: `basic_block_t`. -/
structure Block where
  ops : List Op
  preds : List Blk
  succs : List Blk
deriving DecidableEq, Repr

abbrev Cfg := List Block

def Cfg.preds (c : Cfg) (b : Blk) : List Blk := match c[b]? with | some x => x.preds | none => []
def Cfg.succs (c : Cfg) (b : Blk) : List Blk := match c[b]? with | some x => x.succs | none => []
def Cfg.ops (c : Cfg) (b : Blk) : List Op := match c[b]? with | some x => x.ops | none => []

def upd {α : Type} (f : Nat → α) (i : Nat) (x : α) : Nat → α := fun j => if j = i then x else f j

/-! ### Dominators -/

abbrev Dom := Blk → List Blk

/-- ssa.c:102-118: the entry is dominated by itself, every other block by all. -/
def initDom (c : Cfg) : Dom := fun b => if b = 0 then [0] else List.range c.length

/-- ssa.c:486-495 `block_label_count[id]` after the loop. -/
def labelCount (c : Cfg) (d : Dom) (b id : Blk) : Nat := ((c.preds b).map fun p => (d p).count id).sum

/-- ssa.c:475-507 `ssa_calc_dom_blocks`. -/
def calcDom (c : Cfg) (d : Dom) (b : Blk) : List Blk :=
  (List.range c.length).filter fun id => labelCount c d b id == (c.preds b).length || id == b

/-- ssa.c:126-135: one round over the blocks. -/
def domPass (c : Cfg) : List Blk → Dom → Bool → Dom × Bool
  | [], d, changed => (d, changed)
  | b :: rest, d, changed =>
    if d b ≠ calcDom c d b then domPass c rest (upd d b (calcDom c d b)) true
    else domPass c rest d changed

/-- ssa.c:121-137: rounds until nothing changes. -/
def domLoop (c : Cfg) : Nat → Dom → Option Dom
  | 0, _ => none
  | n + 1, d =>
    let r := domPass c (List.range' 1 (c.length - 1)) d false
    if r.2 then domLoop c n r.1 else some r.1

/-- ssa.c:100-138 `ssa_domers`; the counters are an array of 65535 entries (482). -/
def domers (c : Cfg) (fuel : Nat) : Option Dom :=
  if c.length > 65535 then none else domLoop c fuel (initDom c)

/-- ssa.c:28-42 `self_is_imm_dom`. -/
def selfIsImmDom (d : Dom) (doms : List Blk) (self await : Blk) : Bool :=
  doms.all fun item => item == self || item == await || (d self).contains item

/-- ssa.c:50-65 `calc_imm_domer`. -/
def calcImmDomer (d : Dom) (b : Blk) : Option Blk :=
  (d b).find? fun dom => dom != b && selfIsImmDom d (d b) dom b

/-- ssa.c:147-158 `ssa_imm_domer`: the entry has none. -/
def immDomers (c : Cfg) (d : Dom) : Option (Blk → Option Blk) :=
  if (List.range' 1 (c.length - 1)).all fun b => (calcImmDomer d b).isSome then
    some fun b => if b = 0 ∨ c.length ≤ b then none else calcImmDomer d b
  else none

/-- ssa.c:156: `imm_domees`, in the order in which they are pushed. -/
def domees (c : Cfg) (idom : Blk → Option Blk) (b : Blk) : List Blk :=
  (List.range' 1 (c.length - 1)).filter fun i => idom i == some b

/-- ssa.c:186-195: from one predecessor up to (not including) `stop`; `none`: the entry's missing dominator is used. -/
def runner (idom : Blk → Option Blk) (stop current : Blk) : Nat → Blk → Dom → Option Dom
  | 0, _, _ => none
  | n + 1, r, df =>
    if r = stop then some df
    else
      match idom r with
      | none => none
      | some r' => if r' = r then none else runner idom stop current n r' (upd df r (df r ++ [current]))

/-- ssa.c:170-198: the predecessors of one block. -/
def dfPreds (n : Nat) (idom : Blk → Option Blk) (stop current : Blk) : List Blk → Dom → Option Dom
  | [], df => some df
  | p :: rest, df => (runner idom stop current (n + 1) p df).bind fun df => dfPreds n idom stop current rest df

/-- ssa.c:169-198: one block after the other. -/
def dfBlocks (c : Cfg) (idom : Blk → Option Blk) : List Blk → Dom → Option Dom
  | [], df => some df
  | b :: rest, df =>
    if (c.preds b).length < 2 then dfBlocks c idom rest df
    else
      match idom b with
      | none => none
      | some stop => (dfPreds c.length idom stop b (c.preds b) df).bind fun df => dfBlocks c idom rest df

/-- ssa.c:169-199 `ssa_df`. -/
def ssaDf (c : Cfg) (idom : Blk → Option Blk) : Option Dom := dfBlocks c idom (List.range c.length) (fun _ => [])

/-! ### Uses and definitions -/

/-- Lists built by ssa.c:390-452 for one block. -/
structure UseDef where
  use : List Var
  defs : List Var
  existUse : List Var
  globals : List Var

/-- ssa.c:408-424: a variable read. -/
def addUse (s : UseDef) (v : Var) : UseDef :=
  if ¬ v ∈ s.defs ∧ ¬ v ∈ s.existUse then
    { s with use := s.use ++ [v], existUse := s.existUse ++ [v], globals := if v ∈ s.globals then s.globals else s.globals ++ [v] }
  else s

/-- ssa.c:427-450: a variable written; `exist_def` stays empty (438), so that a variable may occur twice. -/
def addDef (s : UseDef) (v : Var) : UseDef := { s with defs := s.defs ++ [v], existUse := s.existUse ++ [v] }

def useDefOp (s : UseDef) (o : Op) : UseDef := o.defs.foldl addDef (o.uses.foldl addUse s)

/-- ssa.c:394-456: one block. -/
def useDefBlock (globals : List Var) (ops : List Op) : UseDef := ops.foldl useDefOp ⟨[], [], [], globals⟩

/-- What ssa.c:388-457 `ssa_use_def` leaves: `block->use`, `block->def`, `ssa_globals`, `ssa_var_blocks`. -/
structure Analysis where
  use : Blk → List Var
  defs : Blk → List Var
  globals : List Var
  varBlocks : Var → List Blk

/-- ssa.c:441-449: the key that would keep a block from being pushed twice is looked up in the wrong table, so it is pushed
for each definition. -/
def pushBlocks (b : Blk) (vs : List Var) (t : Var → List Blk) : Var → List Blk :=
  vs.foldl (fun t v => upd t v (t v ++ [b])) t

def useDefFrom (c : Cfg) : List Blk → Analysis → Analysis
  | [], a => a
  | b :: rest, a =>
    let u := useDefBlock a.globals (c.ops b)
    useDefFrom c rest ⟨upd a.use b u.use, upd a.defs b u.defs, u.globals, pushBlocks b u.defs a.varBlocks⟩

def useDef (c : Cfg) : Analysis := useDefFrom c (List.range c.length) ⟨fun _ => [], fun _ => [], [], fun _ => []⟩

/-! ### Live variables -/

/-- Push what is not there yet: the tables `exist_var` of ssa.c:298, 323. -/
def addNew (l : List Var) (v : Var) : List Var := if v ∈ l then l else l ++ [v]

/-- ssa.c:296-314 `ssa_calc_live_out`. -/
def calcLiveOut (c : Cfg) (liveIn : Blk → List Var) (b : Blk) : List Var :=
  (c.succs b).foldl (fun l s => (liveIn s).foldl addNew l) []

/-- ssa.c:320-347 `ssa_calc_live_in`. -/
def calcLiveIn (use defs liveOut : List Var) : List Var :=
  liveOut.foldl (fun l v => if v ∈ l then l else if v ∈ defs then l else l ++ [v]) (use.foldl addNew [])

/-- ssa.c:355-386 `ssa_live_changed`: `double_count` is an `uint8_t`. -/
def liveChanged (old new : List Var) : Bool :=
  if old.length ≠ new.length then true
  else if new.any fun v => !old.contains v then true
  else new.length % 256 != new.length

structure Live where
  inn : Blk → List Var
  out : Blk → List Var

/-- ssa.c:224-237: one block of one round. -/
def liveStep (c : Cfg) (a : Analysis) (b : Blk) (l : Live) (changed : Bool) : Live × Bool :=
  let o := calcLiveOut c l.inn b
  let l1 : Live × Bool := if liveChanged (l.out b) o then (⟨l.inn, upd l.out b o⟩, true) else (l, changed)
  let i := calcLiveIn (a.use b) (a.defs b) (l1.1.out b)
  if liveChanged (l1.1.inn b) i then (⟨upd l1.1.inn b i, l1.1.out⟩, true) else l1

def livePass (c : Cfg) (a : Analysis) : List Blk → Live → Bool → Live × Bool
  | [], l, changed => (l, changed)
  | b :: rest, l, changed =>
    let r := liveStep c a b l changed
    livePass c a rest r.1 r.2

/-- ssa.c:220-239: rounds over the blocks from the last to the first. -/
def liveLoop (c : Cfg) (a : Analysis) : Nat → Live → Option Live
  | 0, _ => none
  | n + 1, l =>
    let r := livePass c a (List.range c.length).reverse l false
    if r.2 then liveLoop c a n r.1 else some r.1

/-- ssa.c:211-240 `ssa_live`. -/
def live (c : Cfg) (a : Analysis) (fuel : Nat) : Option Live := liveLoop c a fuel ⟨fun _ => [], fun _ => []⟩

/-! ### Phi functions -/

/-- ssa.c:262-284: the dominance frontier of one block. -/
def phiFrontier (v : Var) (liveIn : Blk → List Var) : List Blk → (work inserted : List Blk) → List Blk × List Blk
  | [], work, inserted => (work, inserted)
  | d :: rest, work, inserted =>
    if d ∈ inserted then phiFrontier v liveIn rest work inserted
    else if ¬ v ∈ liveIn d then phiFrontier v liveIn rest work inserted
    else phiFrontier v liveIn rest (work ++ [d]) (inserted ++ [d])

/-- ssa.c:260-286: the work list of one variable. -/
def phiLoop (v : Var) (df : Dom) (liveIn : Blk → List Var) : Nat → (work inserted : List Blk) → Option (List Blk)
  | _, [], inserted => some inserted
  | 0, _ :: _, _ => none
  | n + 1, b :: work, inserted =>
    let r := phiFrontier v liveIn (df b) work inserted
    phiLoop v df liveIn n r.1 r.2

/-- ssa.c:251-291 `ssa_add_phi`: the blocks in which each variable gets a phi function; 258: a variable that is read needs a
definition. -/
def addPhis (a : Analysis) (df : Dom) (liveIn : Blk → List Var) (fuel : Nat) : List Var → (Var → List Blk) →
    Option (Var → List Blk)
  | [], ins => some ins
  | v :: rest, ins =>
    if a.varBlocks v = [] then none
    else (phiLoop v df liveIn fuel (a.varBlocks v) []).bind fun l => addPhis a df liveIn fuel rest (upd ins v l)

/-- The phi functions of a block, first to last: each is inserted right after the label (273). -/
def phisOf (globals : List Var) (ins : Var → List Blk) (b : Blk) : List Var :=
  (globals.filter fun v => (ins v).contains b).reverse

/-- ssa.c:276-279: the variables that have some phi function, the new `ssa_globals`. -/
def merged (globals : List Var) (ins : Var → List Blk) : List Var := globals.filter fun v => !(ins v).isEmpty

/-! ### Renaming -/

/-- `var_number_table` and `stack_table` (ssa.c:515-532); the top of a stack is the head of the list. -/
structure Names where
  num : Var → Nat
  stk : Var → List Nat

/-- ssa.c:665-680 `ssa_new_var_number`: the next number is two more; the stack holds 255 entries of type `uint8_t`. -/
def newNumber (s : Names) (v : Var) : Option (Names × Nat) :=
  if (s.stk v).length ≥ 255 then none
  else some (⟨upd s.num v (s.num v + 2), upd s.stk v (s.num v % 256 :: s.stk v)⟩, s.num v)

/-- ssa.c:552-559: the results of the phi functions; 683: the number must be less than 255. -/
def namePhis : Names → List Var → Option (Names × List (Var × Nat))
  | s, [] => some (s, [])
  | s, v :: rest =>
    (newNumber s v).bind fun r =>
    if r.2 < 255 then (namePhis r.1 rest).bind fun q => some (q.1, (v, r.2) :: q.2) else none

/-- ssa.c:563-571. -/
def nameUses (s : Names) : List Var → Option (List (Var × Nat))
  | [] => some []
  | v :: rest =>
    match s.stk v with
    | [] => none
    | k :: _ => (nameUses s rest).bind fun q => some ((v, k) :: q)

/-- ssa.c:573-579: `uint8_t number`. -/
def nameDefs : Names → List Var → Option (Names × List (Var × Nat))
  | s, [] => some (s, [])
  | s, v :: rest =>
    (newNumber s v).bind fun r =>
    if r.2 % 256 < 255 then (nameDefs r.1 rest).bind fun q => some (q.1, (v, r.2 % 256) :: q.2) else none

/-- ssa.c:561-582. -/
def nameOps : Names → List Op → Option (Names × List ROp)
  | s, [] => some (s, [])
  | s, o :: rest =>
    (nameUses s o.uses).bind fun us =>
    (nameDefs s o.defs).bind fun r =>
    (nameOps r.1 rest).bind fun q => some (q.1, ⟨us, r.2, o.code⟩ :: q.2)

/-- ssa.c:718-731 `ssa_phi_body_of`: the last position. -/
def phiIndex (preds : List Blk) (b : Blk) : Option Nat :=
  (List.range preds.length).reverse.find? fun i => preds[i]? == some b

/-- The renamed function: names of the phi functions' results, their arguments by block, variable and position of the
predecessor, and the operations; and the names that variables in the lists `ssa_live_in` and `live_out` get (540-548,
584-593), for all variables, whether they are in the lists or not: the number on top of the stack, or none. -/
structure Out where
  phis : Blk → List (Var × Nat)
  args : Blk → Var → Nat → Option Nat
  ops : Blk → List ROp
  inn : Blk → Var → Option Nat
  out : Blk → Var → Option Nat

def setArg (a : Blk → Var → Nat → Option Nat) (s : Blk) (v : Var) (i k : Nat) : Blk → Var → Nat → Option Nat :=
  fun s' v' i' => if s' = s ∧ v' = v ∧ i' = i then some k else a s' v' i'

/-- ssa.c:613-626: the arguments of the phi functions of one successor; an argument that has been named before is looked up
under its new name, which is in no table (619). -/
def nameArgs (nm : Names) (s : Blk) (i : Nat) : List Var → (Blk → Var → Nat → Option Nat) → Option (Blk → Var → Nat → Option Nat)
  | [], a => some a
  | v :: rest, a =>
    match a s v i, nm.stk v with
    | none, k :: _ => nameArgs nm s i rest (setArg a s v i k)
    | _, _ => none

/-- ssa.c:608-628: the successors. -/
def nameSuccs (c : Cfg) (phis : Blk → List Var) (nm : Names) (b : Blk) : List Blk → (Blk → Var → Nat → Option Nat) →
    Option (Blk → Var → Nat → Option Nat)
  | [], a => some a
  | s :: rest, a =>
    match phis s with
    | [] => nameSuccs c phis nm b rest a
    | v :: vs =>
      match phiIndex (c.preds s) b with
      | none => none
      | some i => (nameArgs nm s i (v :: vs) a).bind fun a => nameSuccs c phis nm b rest a

/-- ssa.c:639-657: what the block has defined is popped, for variables that have a phi function somewhere. -/
def popDefs (merged : List Var) : List Var → (Var → List Nat) → (Var → List Nat)
  | [], stk => stk
  | v :: rest, stk => popDefs merged rest (if v ∈ merged then upd stk v (stk v).tail else stk)

/-- All variables a block defines, in order: phi functions first. -/
def blockDefs (c : Cfg) (phis : Blk → List Var) (b : Blk) : List Var := phis b ++ (c.ops b).flatMap (·.defs)

/-- Phi functions and operations of one block. -/
def nameBlock (c : Cfg) (phis : Blk → List Var) (nm : Names) (b : Blk) : Option (Names × List (Var × Nat) × List ROp) :=
  (namePhis nm (phis b)).bind fun p =>
  (nameOps p.1 (c.ops b)).bind fun q => some (q.1, p.2, q.2)

/-- ssa.c:538-658 `ssa_rename_block`: the first argument bounds the depth of the recursion. -/
def renameBlock (c : Cfg) (phis : Blk → List Var) (merged : List Var) (tree : Blk → List Blk) :
    Nat → Blk → Names × Out → Option (Names × Out)
  | 0, _, _ => none
  | n + 1, b, st =>
    (nameBlock c phis st.1 b).bind fun r =>
    (nameSuccs c phis r.1 b (c.succs b) st.2.args).bind fun a =>
    ((tree b).foldlM (fun st d => renameBlock c phis merged tree n d st)
      (r.1, (⟨upd st.2.phis b r.2.1, a, upd st.2.ops b r.2.2, upd st.2.inn b fun v => (st.1.stk v).head?,
        upd st.2.out b fun v => (r.1.stk v).head?⟩ : Out))).bind fun q =>
    some (⟨q.1.num, popDefs merged (blockDefs c phis b) q.1.stk⟩, q.2)

/-- ssa.c:512-536 `ssa_rename`. -/
def rename (c : Cfg) (phis : Blk → List Var) (merged : List Var) (tree : Blk → List Blk) : Option Out :=
  (renameBlock c phis merged tree c.length 0
    (⟨fun _ => 0, fun _ => []⟩, ⟨fun _ => [], fun _ _ _ => none, fun _ => [], fun _ _ => none, fun _ _ => none⟩)).map (·.2)

/-- ssa.c:71-92 `ssa`: `fuel` bounds the rounds of the loops. -/
def ssa (c : Cfg) (fuel : Nat) : Option Out :=
  (domers c fuel).bind fun d =>
  (immDomers c d).bind fun idom =>
  (ssaDf c idom).bind fun df =>
  (live c (useDef c) fuel).bind fun l =>
  (addPhis (useDef c) df l.inn fuel (useDef c).globals (fun _ => [])).bind fun ins =>
  rename c (phisOf (useDef c).globals ins) (merged (useDef c).globals ins) (domees c idom)

end Nature.Ssa
