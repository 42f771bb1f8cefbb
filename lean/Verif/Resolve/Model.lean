/-!
Model of the resolution of a control-flow edge: src/register/interval.c
`resolve_blocked` (366-380) and `resolve_mappings` (1516-1594), with the order in which
`block_insert_mov` (437-470) inserts.

An interval is reduced to the location `var_replace` (allocate.c:60-91) gives it: the
register `assigned` or, when spilled, its stack slot (`interval_spill_slot` sets
`assigned = 0`, interval.c:1328-1329).  `home` is the slot `interval_spill_slot`
(interval.c:1325-1357) gives to a child of the source interval: the slot shared by all
intervals of that variable, allocated when needed.  A constant that is recomputed instead of
copied (`is_const_float`, interval.c:1552-1560) is one instruction `const`; the auxiliary
instructions of its template are not modelled.  `must_hint` is not modelled.  `none` means
that an assertion failed or the step bound of the outer loop was reached; the theorems show
that the bound `2 * count + 1` is never reached.
-/
namespace Nature.Resolve

inductive Loc where
  | reg (n : Nat)
  | stack (slot : Int)
deriving DecidableEq, Repr

def Loc.isStack : Loc → Bool
  | .reg _ => false
  | .stack _ => true

/-- One entry of `from_list` / `to_list`. -/
structure Item where
  src : Loc
  dst : Loc
  home : Int
  const : Option Nat
deriving DecidableEq, Repr

/-- The instructions inserted. -/
inductive Ins where
  | mov (src dst : Loc)
  | const (c : Nat) (dst : Loc)
deriving DecidableEq, Repr

/-- `from_list`/`to_list`, `block_regs` (int8_t counters), `spill_candidate`, and the
instructions inserted so far. -/
structure St where
  pend : List Item
  block : Nat → BitVec 8
  cand : Option Nat
  out : List Ins

/-- interval.c:1525-1530: `block_regs[i->assigned] += 1` for each source in a register. -/
def countRegs : List Item → (Nat → BitVec 8)
  | [] => fun _ => 0
  | it :: l =>
    match it.src with
    | .reg r => fun x => if x = r then countRegs l x + 1 else countRegs l x
    | .stack _ => countRegs l

/-- interval.c:366-380 `resolve_blocked`. -/
def blocked (block : Nat → BitVec 8) (it : Item) : Bool :=
  match it.dst with
  | .stack _ => false
  | .reg r =>
    if block r = 0 then false
    else if block r = 1 ∧ it.src = .reg r then false
    else true

/-- interval.c:1566-1568 and 1591: `block_regs[from->assigned] -= 1`. -/
def release (block : Nat → BitVec 8) (src : Loc) : Nat → BitVec 8 :=
  match src with
  | .reg r => fun x => if x = r then block x - 1 else block x
  | .stack _ => block

/-- interval.c:1552-1564: the instructions for one entry. -/
def insFor (it : Item) : List Ins :=
  match it.const with
  | some c => if it.dst.isStack then [] else [.const c it.dst]
  | none => [.mov it.src it.dst]

/-- interval.c:1535-1574: one pass `for (int i = 0; i < r->from_list->count; ++i)`; the
entry removed at `i` is replaced by its successor, which this pass then skips.  `k` bounds
the iterations (`i` grows and the list does not). -/
def pass : (k i : Nat) → St → Bool → Option (St × Bool)
  | 0, _, s, processed => some (s, processed)
  | k + 1, i, s, processed =>
    match s.pend[i]? with
    | none => some (s, processed)
    | some it =>
      if it.src.isStack && it.dst.isStack then none
      else if blocked s.block it then pass k (i + 1) { s with cand := some i } processed
      else pass k (i + 1) { s with
        out := s.out ++ insFor it
        block := release s.block it.src
        pend := s.pend.eraseIdx i } true

/-- interval.c:1577-1592: nothing could be processed: move the source of the candidate to its
variable's stack slot. -/
def spill (s : St) : Option St :=
  match s.cand with
  | none => none
  | some c =>
    match s.pend[c]? with
    | none => none
    | some it => some { s with
        out := s.out ++ [.mov it.src (.stack it.home)]
        block := release s.block it.src
        pend := s.pend.set c { it with src := .stack it.home } }

/-- interval.c:1533: `while (r->from_list->count > 0)`. -/
def loop : (fuel : Nat) → St → Option St
  | 0, _ => none
  | f + 1, s =>
    if s.pend = [] then some s
    else
      (pass s.pend.length 0 s false).bind fun (s, processed) =>
      if processed then loop f s
      else (spill s).bind fun s => loop f s

/-- interval.c:1516-1594 `resolve_mappings`: the instructions inserted, in order. -/
def resolveMappings (l : List Item) : Option (List Ins) :=
  (loop (2 * l.length + 1) ⟨l, countRegs l, none, []⟩).map St.out

/-- interval.c:437-470 `block_insert_mov`: insert before the first operation with a larger
id; `none`: there is none (assertion).  The label assertion (446-448) is not modelled. -/
def insertMov {α : Type} (id : Int) (m : α) : List (Int × α) → Option (List (Int × α))
  | [] => none
  | op :: l => if op.1 ≤ id then (insertMov id m l).map (op :: ·) else some ((id, m) :: op :: l)

/-- Several calls in a row with the same id. -/
def insertAll {α : Type} (id : Int) : List α → List (Int × α) → Option (List (Int × α))
  | [], b => some b
  | m :: ms, b => (insertMov id m b).bind fun b => insertAll id ms b

end Nature.Resolve
