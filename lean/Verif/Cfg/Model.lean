/-
Model of the construction of the control flow graph of a function: /repo/src/cfg.c.

The code of a function is a list of operations.  Labels are numbers; `label_ident_with_unique` (the labels made by cfg.c
itself) is a counter passed through the functions.  Blocks are referred to by their labels where the C code uses pointers.
Comparisons of labels by address (cfg.c:110, 117) are comparisons of labels: all copies of a label share the string
(lir.h:451-454).  `none` is every way of not succeeding: a failed assertion or a null pointer.
-/
namespace Nature.Cfg

scoped notation "Label" => Nat

/-- src/lir.h: `lir_op_t` as far as control flow is concerned: labels, `BAL`, conditional branches (lir.h:1200-1206) and all
other operations; the number stands for what else there is. -/
inductive Ins
  | label (l : Label)
  | bal (l : Label)
  | br (c : Nat) (l : Label)
  | op (c : Nat)
deriving DecidableEq, Repr

/-- src/lir.h:1208-1210 `lir_op_branch`. -/
def Ins.branch : Ins → Bool
  | .bal _ => true
  | .br _ _ => true
  | _ => false

def Ins.isLabel : Ins → Bool
  | .label _ => true
  | _ => false

/-- src/lir.h: `basic_block_t`. -/
structure Block where
  name : Label
  ops : List Ins
  preds : List Label
  succs : List Label
deriving DecidableEq, Repr

abbrev Graph := List Block

/-! ### cfg_build -/

/-- What the last operation put into the current block was. -/
inductive Last
  | plain
  | br
  | bal
deriving DecidableEq

/-- cfg.c:258-281: the current block is ended because label `l` follows: a branch to `l` itself is dropped, and a jump to `l`
is added unless there is one. -/
def finish (l : Label) (ops : List Ins) : List Ins :=
  let ops := match ops.getLast? with
    | some (.br _ l') => if l' = l then ops.dropLast else ops
    | _ => ops
  match ops.getLast? with
  | some (.bal _) => ops
  | _ => ops ++ [.bal l]

/-- The kind of an operation. -/
def Ins.last : Ins → Last
  | .bal _ => .bal
  | .br _ _ => .br
  | _ => .plain

/-- cfg.c:246-321: the loop over the operations; `cur` is the name and the operations of the current block, `done` the blocks
before it.  292-308: branches after a jump are removed; 310-315: a label is added between a branch and an operation that is
not a label.  A branch must not be the last operation: its successor's operation is looked at without a check. -/
def build : Last → Nat → List (Label × List Ins) → Label × List Ins → List Ins → Option (List (Label × List Ins) × Nat)
  | .plain, t, done, cur, [] => some (done ++ [cur], t)
  | _, _, _, _, [] => none
  | _, t, done, cur, .label l :: r => build .plain t (done ++ [(cur.1, finish l cur.2)]) (l, [.label l]) r
  | .plain, t, done, cur, i :: r => build i.last t done (cur.1, cur.2 ++ [i]) r
  | .br, t, done, cur, i :: r => build i.last (t + 1) (done ++ [(cur.1, finish t cur.2)]) (t, [.label t, i]) r
  | .bal, t, done, cur, i :: r =>
    if i.branch then build .bal t done cur r
    else build i.last (t + 1) (done ++ [(cur.1, finish t cur.2)]) (t, [.label t, i]) r

/-- cfg.c:242-321: the first operation must be a label. -/
def blocks (t : Nat) : List Ins → Option (List (Label × List Ins) × Nat)
  | .label l :: r => build .plain t [] (l, [.label l]) r
  | _ => none

/-- cfg.c:329-348: the successors of a block. -/
def targets (ops : List Ins) : List Label :=
  match ops.reverse with
  | .bal l :: .br _ l' :: _ => [l, l']
  | .bal l :: .bal l' :: _ => [l, l']
  | .bal l :: _ => [l]
  | _ => []

/-- cfg.c:325-349: the second pass; 336, 346: the target must exist. -/
def edges (bs : List (Label × List Ins)) : Option Graph :=
  if (bs.flatMap fun b => targets b.2).all fun l => (bs.map (·.1)).contains l then
    some (bs.map fun b => ⟨b.1, b.2, bs.flatMap fun p => ((targets p.2).filter (· == b.1)).map fun _ => p.1, targets b.2⟩)
  else none

/-! ### cfg_pruning -/

def succsOf (g : Graph) (l : Label) : List Label := match g.find? (·.name == l) with | some b => b.succs | none => []

/-- cfg.c:19-25: the successors of one block. -/
def visit : List Label → (queue seen : List Label) → List Label × List Label
  | [], q, seen => (q, seen)
  | s :: r, q, seen => if s ∈ seen then visit r q seen else visit r (q ++ [s]) (seen ++ [s])

/-- cfg.c:16-26: breadth first search. -/
def search (g : Graph) : Nat → (queue seen : List Label) → Option (List Label)
  | _, [], seen => some seen
  | 0, _ :: _, _ => none
  | n + 1, b :: q, seen =>
    let r := visit (succsOf g b) q seen
    search g n r.1 r.2

/-- Change the block of that name. -/
def change (g : Graph) (l : Label) (f : Block → Block) : Graph := g.map fun b => if b.name = l then f b else b

def predsOf (g : Graph) (l : Label) : List Label := match g.find? (·.name == l) with | some b => b.preds | none => []
def opsOf (g : Graph) (l : Label) : List Ins := match g.find? (·.name == l) with | some b => b.ops | none => []

/-- cfg.c:36-45: block `l` is removed from the successors of its predecessors.  Blocks are told apart by their ids here, which are
their positions. -/
def detachPreds (g : Graph) (l : Label) : Graph :=
  (predsOf g l).foldl (fun g p => change g p fun x => { x with succs := x.succs.erase l }) g

/-- cfg.c:48-57: and from the predecessors of its successors. -/
def detachSuccs (g : Graph) (l : Label) : Graph :=
  (succsOf g l).foldl (fun g s => change g s fun x => { x with preds := x.preds.erase l }) g

/-- cfg.c:8-65 `cfg_pruning`. -/
def prune (g : Graph) : Option Graph :=
  match g with
  | [] => none
  | e :: _ =>
    (search g (g.length + 1) [e.name] [e.name]).map fun seen =>
      (((g.map (·.name)).filter fun l => ¬ l ∈ seen).foldl (fun g l => detachSuccs (detachPreds g l) l) g).filter
        fun b => b.name ∈ seen

/-! ### cfg_merge_blocks -/

/-- cfg.c:385-399: the operations of both blocks; 387-390: the jump is removed; 395: labels are left out. -/
def joined (b next : Block) : List Ins :=
  (match b.ops.getLast? with | some (.bal _) => b.ops.dropLast | _ => b.ops) ++
    next.ops.filter fun i => !i.isLabel

/-- cfg.c:401-416: `next` is merged into `b`. -/
def mergeInto (g : Graph) (b next : Block) : Graph :=
  let g := change g b.name fun x => { x with ops := joined b next, succs := next.succs }
  let g := next.succs.foldl (fun g s =>
    change g s fun x => { x with preds := x.preds.map fun p => if p = next.name then b.name else p }) g
  g.filter fun x => x.name ≠ next.name

/-- cfg.c:365-383: blocks that must not be merged are given by `keep`: the end of the function and blocks whose name contains
`MATCH_IDENT`. -/
def mergeable (keep : Label → Bool) (b next : Block) : Bool :=
  b.succs == [next.name] && next.preds.length == 1 && !keep next.name

/-- cfg.c:361-420: the first pair of neighbours that can be merged. -/
def mergeOne (keep : Label → Bool) (g : Graph) : List Block → Option Graph
  | b :: next :: r => if mergeable keep b next then some (mergeInto g b next) else mergeOne keep g (next :: r)
  | _ => none

/-- cfg.c:357-423 `cfg_merge_blocks`: until nothing can be merged; each round removes a block, so that as many rounds as there
are blocks are enough. -/
def mergeLoop (keep : Label → Bool) : Nat → Graph → Graph
  | 0, g => g
  | n + 1, g => match mergeOne keep g g with | some g => mergeLoop keep n g | none => g

def merge (keep : Label → Bool) (g : Graph) : Graph := mergeLoop keep g.length g

/-! ### broken_critical_edges -/

/-- cfg.c:106-120: the jumps of `p` to `b` go to the new block; 108: the last operation is a jump. -/
def retarget (b n : Label) (ops : List Ins) : Option (List Ins) :=
  match ops.reverse with
  | .bal l :: .br c l' :: r =>
    some ((.bal (if l = b then n else l) :: .br c (if l' = b then n else l') :: r).reverse)
  | .bal l :: .bal l' :: r =>
    some ((.bal (if l = b then n else l) :: .bal (if l' = b then n else l') :: r).reverse)
  | .bal l :: r => some ((.bal (if l = b then n else l) :: r).reverse)
  | _ => none

/-- cfg.c:74-120: block `n` is put between `p` and `b`. -/
def splitEdge (g : Graph) (p b n : Label) : Option Graph :=
  let g := g ++ [⟨n, [.label n, .bal b], [p], [b]⟩]
  let g := change g b fun x => { x with preds := x.preds ++ [n] }
  let g := change g p fun x => { x with succs := x.succs ++ [n] }
  let g := change g p fun x => { x with succs := x.succs.erase b }
  let g := change g b fun x => { x with preds := x.preds.erase p }
  (retarget b n (opsOf g p)).map fun ops => change g p fun x => { x with ops := ops }

/-- cfg.c:72: the edge leaves a block with several successors and enters one with several predecessors. -/
def critical (g : Graph) (p b : Label) : Bool := (predsOf g b).length > 1 && (succsOf g p).length > 1

/-- cfg.c:70-122: the predecessors of block `b` from position `i` on; the first argument is the number of predecessors left
(splitting an edge adds one and removes one). -/
def splitPreds (b : Label) : Nat → Nat → Nat → Graph → Option (Graph × Nat)
  | 0, _, t, g => some (g, t)
  | n + 1, i, t, g =>
    match (predsOf g b)[i]? with
    | none => some (g, t)
    | some p =>
      if critical g p b then (splitEdge g p b t).bind fun g => splitPreds b n (i + 1) (t + 1) g
      else splitPreds b n (i + 1) t g

/-- cfg.c:67-124 `broken_critical_edges`, for the blocks there are at the beginning: the blocks added on the way come last and
have only one predecessor, so that nothing is done for them. -/
def splitAll : List Label → Nat → Graph → Option (Graph × Nat)
  | [], t, g => some (g, t)
  | b :: r, t, g => (splitPreds b (predsOf g b).length 0 t g).bind fun q => splitAll r q.2 q.1

/-- cfg.c:467-476: the passes; `t` is the first label that is not in use. -/
def cfg (keep : Label → Bool) (t : Nat) (code : List Ins) : Option Graph :=
  (blocks t code).bind fun q =>
  (edges q.1).bind fun g =>
  (prune g).bind fun g =>
  (splitAll ((merge keep g).map (·.name)) q.2 (merge keep g)).map (·.1)

end Nature.Cfg
