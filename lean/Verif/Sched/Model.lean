/-
Instruction scheduling: src/schedule.c, src/schedule.h, and the parts of src/lir.h that say which variables and registers an
instruction uses and defines.
-/
namespace Nature.Sched

/-- src/types.h (`reg_t`): a register: whether it is a floating point register, its number, and whether it is one of the amd64
registers ah, ch, dh, bh (whose numbers are 4 to 7; src/register/arch/amd64.c:239-242). -/
structure Reg where
  fl : Bool
  index : Nat
  high : Bool
deriving DecidableEq, Repr

/-- Base or index of an address: a variable, or a register (src/lir.h:1042-1075). -/
inductive Part where
  | var (v : Nat)
  | reg (r : Reg)
deriving DecidableEq, Repr

/-- src/types.h:400-415 (`lir_operand_type_t`), with the identity of variables and global variables as numbers.  The operands that
only fixed instructions have (labels, arguments, parameters, bodies of phi) are `other`.  The type of an operand is left out. -/
inductive Operand where
  | var (v : Nat)
  | reg (r : Reg)
  | regs (rs : List Reg)
  | ind (base index : Option Part)
  | sym (s : Nat)
  | stack (slot : Int)
  | imm (n : Int)
  | other
deriving DecidableEq, Repr

/-- src/types.h:417-520 (`lir_opcode_t`), as far as scheduling tells them apart.  `rest` has a number for all other codes. -/
inductive Code where
  | label | phi | safepoint | fnBegin | fnEnd | call | rtCall | branch | ret | return
  | nop | lea | div | mul | add | neg | convF | bit | scc
  | rest (n : Nat)
deriving DecidableEq, Repr

/-- src/types.h (`lir_op_t`).  `num` tells apart instructions that differ in what is left out here. -/
structure Op where
  code : Code
  first : Option Operand := none
  second : Option Operand := none
  addend : Option Operand := none
  output : Option Operand := none
  /-- schedule.c:110-122 (`schedule_is_float_op`). -/
  float : Bool := false
  num : Nat := 0
deriving DecidableEq, Repr

/-! ### Uses and definitions -/

def Part.vars : Option Part → List Nat
  | some (.var v) => [v]
  | _ => []

/-- src/lir.h:457-511 (`recursion_extract_operands`) with src/lir.h:632-694 (`set_operand_flag`): the variables an operand uses,
when it is not the output. -/
def Operand.vars : Operand → List Nat
  | .var v => [v]
  | .ind b i => Part.vars b ++ Part.vars i
  | _ => []

/-- The same for the output: the variable itself is defined, those of an address are used. -/
def Operand.outVars : Operand → List Nat
  | .ind b i => Part.vars b ++ Part.vars i
  | _ => []

/-- The registers an operand uses; registers in an address carry no mark (src/lir.h:661-675). -/
def Operand.regUses : Operand → List Reg
  | .reg r => [r]
  | .regs rs => rs
  | _ => []

def ofOpt {α : Type} (f : Operand → List α) : Option Operand → List α
  | none => []
  | some o => f o

/-- src/lir.h:1384-1424: `extract_var_operands(op, FLAG(LIR_FLAG_USE))`. -/
def Op.varUses (op : Op) : List Nat :=
  ofOpt Operand.outVars op.output ++ ofOpt Operand.vars op.first ++ ofOpt Operand.vars op.second ++ ofOpt Operand.vars op.addend

/-- `extract_var_operands(op, FLAG(LIR_FLAG_DEF))`. -/
def Op.varDef (op : Op) : Option Nat :=
  match op.output with
  | some (.var v) => some v
  | _ => none

/-- src/lir.h:1426-1428: `extract_reg_operands(op, FLAG(LIR_FLAG_USE))`. -/
def Op.regUses (op : Op) : List Reg :=
  ofOpt Operand.regUses op.first ++ ofOpt Operand.regUses op.second ++ ofOpt Operand.regUses op.addend

/-- schedule.c:409: the register an instruction defines. -/
def Op.regDef (op : Op) : Option Reg :=
  match op.output with
  | some (.reg r) => some r
  | _ => none

def Operand.isInd : Option Operand → Bool
  | some (.ind _ _) => true
  | _ => false

/-- schedule.c:35-48 (`schedule_is_mem_read`). -/
def Op.memRead (op : Op) : Bool :=
  Operand.isInd op.first || Operand.isInd op.second || op.code == .call || op.code == .rtCall

/-- schedule.c:53-63 (`schedule_is_mem_write`). -/
def Op.memWrite (op : Op) : Bool := Operand.isInd op.output || op.code == .call || op.code == .rtCall

/-- schedule.c:69-90 (`schedule_is_fixed`). -/
def Op.fixed (op : Op) : Bool :=
  match op.code with
  | .label | .phi | .safepoint | .fnBegin | .fnEnd | .call | .rtCall | .branch | .ret | .return => true
  | _ => false

/-- schedule.c:129-200 (`schedule_compute_latency`). -/
def Op.latency (op : Op) : Nat :=
  match op.code with
  | .div => if op.float then 15 else 20
  | .mul => 4
  | .add => if op.float then 3 else 1
  | .neg => if op.float then 3 else 1
  | .call | .rtCall => 10
  | .convF => 3
  | .bit => 1
  | .scc => if op.float then 2 else 1
  | _ => if op.memRead then 4 else 1

/-- schedule.c:206-267 (`schedule_compute_score`), schedule.h:13-26. -/
def Op.score (op : Op) : Nat :=
  match op.code with
  | .label => 0
  | .phi => 1
  | .fnBegin => 2
  | .safepoint => 3
  | .nop => 4
  | .branch | .ret | .return => 10
  | .scc => 9
  | .fnEnd => 11
  | .call | .rtCall => 7
  | _ => if op.memWrite then 7 else if op.memRead then 6 else 8

/-! ### Dependencies -/

/-- schedule.h:49-58: `var_def_table`, `reg_def_table`, `reg_use_table` and `last_mem_op`; nodes are numbers. -/
structure Tabs where
  vdef : Nat → Option Nat := fun _ => none
  rdef : Nat → Option Nat := fun _ => none
  ruse : Nat → Option Nat := fun _ => none
  lmem : Option Nat := none

def put (f : Nat → Option Nat) (k n : Nat) : Nat → Option Nat := fun x => if x = k then some n else f x

/-- `schedule_add_dep` is called if the node is there and is another one. -/
def other (n : Nat) : Option Nat → List Nat
  | some m => if m = n then [] else [m]
  | none => []

/-- schedule.c:394-406: the loop over the registers used: the nodes on which node `n` depends, and the new `reg_use_table`.
`id` gives the `alloc_id` of the full register (schedule.c:10-30). -/
def regUseDeps (id : Reg → Nat) (n : Nat) (rdef : Nat → Option Nat) : List Reg → (Nat → Option Nat) → List Nat × (Nat → Option Nat)
  | [], ruse => ([], ruse)
  | r :: rs, ruse =>
    let q := regUseDeps id n rdef rs (put ruse (id r) n)
    (other n (rdef (id r)) ++ q.1, q.2)

/-- schedule.c:367-443, one round of the loop of `schedule_build_deps`: the nodes on which node `n` depends, and the new tables. -/
def step (id : Reg → Nat) (t : Tabs) (n : Nat) (op : Op) : List Nat × Tabs :=
  let d1 := op.varUses.flatMap fun v => other n (t.vdef v)
  let vdef := match op.varDef with | some v => put t.vdef v n | none => t.vdef
  let u := regUseDeps id n t.rdef op.regUses t.ruse
  let d3 := match op.regDef with | some r => other n (t.rdef (id r)) ++ other n (u.2 (id r)) | none => []
  let rdef := match op.regDef with | some r => put t.rdef (id r) n | none => t.rdef
  let mem := op.memRead || op.memWrite
  let d4 := if mem then other n t.lmem else []
  let lmem := if mem then some n else t.lmem
  (d1 ++ u.1 ++ d3 ++ d4, ⟨vdef, rdef, u.2, lmem⟩)

/-- schedule.c:297-309 (`schedule_add_dep`): the edges are kept in one list, from which `successors` and `dep_count` are read; an
edge that is there is not added again. -/
def addEdges (n : Nat) : List Nat → List (Nat × Nat) → List (Nat × Nat)
  | [], es => es
  | m :: ms, es => addEdges n ms (if (m, n) ∈ es then es else es ++ [(m, n)])

/-- schedule.c:367-443 (`schedule_build_deps`). -/
def build (id : Reg → Nat) : (n : Nat) → List Op → Tabs → List (Nat × Nat) → List (Nat × Nat)
  | _, [], _, es => es
  | n, op :: ops, t, es => build id (n + 1) ops (step id t n op).2 (addEdges n (step id t n op).1 es)

/-- `successors`. -/
def succs (es : List (Nat × Nat)) (n : Nat) : List Nat := (es.filter fun e => e.1 = n).map (·.2)

/-- `dep_count`. -/
def depCount (es : List (Nat × Nat)) (n : Nat) : Nat := (es.filter fun e => e.2 = n).length

/-! ### The order -/

/-- schedule.c:449-473 (`schedule_compute_priority_recursive`), without the memory of results.  Edges go from smaller to larger
numbers, so the number of nodes bounds the depth. -/
def priority (lat : Nat → Nat) (es : List (Nat × Nat)) : (fuel n : Nat) → Nat
  | 0, n => lat n
  | f + 1, n => lat n + (succs es n).foldl (fun m s => max m (priority lat es f s)) 0

/-- What `schedule_node_less` compares. -/
structure Rank where
  score : Nat
  prio : Nat
  lat : Nat
deriving DecidableEq, Repr

/-- schedule.c:315-333 (`schedule_node_less`). -/
def less (rk : Nat → Rank) (a b : Nat) : Bool :=
  if (rk a).score ≠ (rk b).score then (rk a).score < (rk b).score
  else if (rk a).prio ≠ (rk b).prio then (rk b).prio < (rk a).prio
  else if (rk a).lat ≠ (rk b).lat then (rk b).lat < (rk a).lat
  else a < b

/-- schedule.c:338-360 (`schedule_pop_best`): the best node; the queue is left without it. -/
def best (rk : Nat → Rank) (b : Nat) : List Nat → Nat
  | [] => b
  | c :: cs => best rk (if less rk c b then c else b) cs

/-- schedule.c:507-514: the successors' counts are lowered; those that reach 0 are ready (`!succ->scheduled`
always holds: what has been scheduled has no count left to lower). -/
def release : List Nat → (Nat → Nat) → List Nat → List Nat × (Nat → Nat)
  | [], cnt, ready => (ready, cnt)
  | s :: ss, cnt, ready =>
    let cnt' := fun x => if x = s then cnt s - 1 else cnt x
    release ss cnt' (if cnt' s = 0 then ready ++ [s] else ready)

/-- schedule.c:498-515: the loop of `schedule_execute`.  `none`: more rounds than there are nodes. -/
def exec (rk : Nat → Rank) (es : List (Nat × Nat)) : (fuel : Nat) → (ready : List Nat) → (cnt : Nat → Nat) → (result : List Nat) →
    Option (List Nat)
  | _, [], _, result => some result
  | 0, _ :: _, _, _ => none
  | f + 1, r :: rs, cnt, result =>
    let b := best rk r rs
    let q := release (succs es b) cnt ((r :: rs).erase b)
    exec rk es f q.1 q.2 (result ++ [b])

/-- schedule.c:480-521, 527-570: the new order of the nodes of a segment; `none` when the assertion fails. -/
def order (id : Reg → Nat) (ops : List Op) : Option (List Nat) :=
  let es := build id 0 ops {} []
  let lat := fun n => match ops[n]? with | some op => op.latency | none => 0
  let rk := fun n => ⟨match ops[n]? with | some op => op.score | none => 0, priority lat es ops.length n, lat n⟩
  do
    let r ← exec rk es ops.length ((List.range ops.length).filter fun n => depCount es n = 0) (depCount es) []
    if r.length = ops.length then some r else none

/-- schedule.c:527-570 (`schedule_segment`). -/
def segment (id : Reg → Nat) (ops : List Op) : Option (List Op) :=
  if ops.length ≤ 2 then some ops
  else (order id ops).map fun r => r.filterMap fun n => ops[n]?

/-- schedule.c:588-611: the loop of `schedule_block`; `seg` is the segment so far. -/
def blockFrom (id : Reg → Nat) : (seg : List Op) → List Op → Option (List Op)
  | seg, [] => segment id seg
  | seg, op :: ops =>
    if op.fixed then do
      let s ← segment id seg
      let rest ← blockFrom id [] ops
      some (s ++ op :: rest)
    else blockFrom id (seg ++ [op]) ops

/-- schedule.c:578-618 (`schedule_block`). -/
def block (id : Reg → Nat) (ops : List Op) : Option (List Op) :=
  if ops.length ≤ 1 then some ops else blockFrom id [] ops

/-! ### The numbers of the registers -/

/-- src/register/arch/amd64.c:182-277: the `alloc_id` of the full register with this number. -/
def idAmd64 (r : Reg) : Nat :=
  if r.fl then (if r.index < 15 then 14 + r.index else 0)
  else ([1, 2, 3, 0, 0, 0, 4, 5, 6, 7, 8, 9, 10, 11, 12, 13][r.index]?).getD 0

end Nature.Sched
