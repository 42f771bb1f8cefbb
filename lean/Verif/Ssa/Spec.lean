/-
What the conversion to single assignment form has to achieve, stated without it: walks through the blocks of a function,
dominance, live variables, and what it means to run a function before and after.
-/
import Verif.Ssa.Model
namespace Nature.Ssa

/-- The blocks passed on some way from the entry to `b`, the last (`b` itself) first. -/
inductive Walk (c : Cfg) : List Blk → Blk → Prop
  | entry : Walk c [0] 0
  | step {l : List Blk} {p s : Blk} : Walk c l p → s ∈ c.succs p → Walk c (s :: l) s

/-- Every way from the entry to `b` passes `d`. -/
def Dominates (c : Cfg) (d b : Blk) : Prop := ∀ l, Walk c l b → d ∈ l

/-- `d` is the last block other than `b` that every way to `b` has to pass. -/
def ImmDom (c : Cfg) (d b : Blk) : Prop :=
  d ≠ b ∧ Dominates c d b ∧ ∀ e, e ≠ b → Dominates c e b → Dominates c e d

/-- The operations read `v` before they write it. -/
def ReadsFirst (v : Var) : List Op → Prop
  | [] => False
  | o :: r => v ∈ o.uses ∨ (¬ v ∈ o.defs ∧ ReadsFirst v r)

/-- Some operation writes `v`. -/
def Writes (v : Var) (ops : List Op) : Prop := ∃ o ∈ ops, v ∈ o.defs

/-- The value `v` has at the beginning of the block may still be read. -/
inductive LiveAt (c : Cfg) (v : Var) : Blk → Prop
  | read {b : Blk} : ReadsFirst v (c.ops b) → LiveAt c v b
  | pass {b s : Blk} : ¬ Writes v (c.ops b) → s ∈ c.succs b → LiveAt c v s → LiveAt c v b

/-- A control flow graph of the kind cfg.c builds (see Cfg/): predecessors and successors agree, no edge occurs twice, nothing leads back to
the entry, and every block can be reached. -/
structure Wf (c : Cfg) : Prop where
  nonempty : 0 < c.length
  entry : c.preds 0 = []
  edge : ∀ p s, s ∈ c.succs p ↔ p ∈ c.preds s
  nodup : ∀ b, (c.preds b).Nodup
  nodup' : ∀ b, (c.succs b).Nodup
  reach : ∀ b, b < c.length → ∃ l, Walk c l b

/-- No variable is read before it is written. -/
def Initialised (c : Cfg) : Prop := ∀ v, ¬ LiveAt c v 0

/-- How often `v` is written in the text of the function. -/
def writesOf (c : Cfg) (v : Var) : Nat := (c.flatMap fun b => b.ops.flatMap (·.defs)).count v

/-- The number of blocks at which ways meet. -/
def joins (c : Cfg) : Nat := (c.filter fun b => 2 ≤ b.preds.length).length

/-! ### Running a function -/

/-- What operations do: values `V`; `W` is everything besides variables, such as memory, input and output.  An operation
gets the values of the variables it reads and yields values for the variables it writes; `next` is the position of the
successor at which to go on after the last operation of a block. -/
structure Interp (V W : Type) where
  step : W → Nat → List V → W × (Nat → V)
  next : W → Nat

/-- Assign `f 0`, `f 1`, … -/
def assign {K V : Type} [DecidableEq K] (env : K → V) : List K → (Nat → V) → K → V
  | [], _ => env
  | x :: xs, f => assign (fun y => if y = x then f 0 else env y) xs fun i => f (i + 1)

def runOps {K V W : Type} [DecidableEq K] (I : Interp V W) (env : K → V) (w : W) : List (Instr K) → (K → V) × W
  | [] => (env, w)
  | o :: r => runOps I (assign env o.defs (I.step w o.code (o.uses.map env)).2) (I.step w o.code (o.uses.map env)).1 r

/-- Where a run is: about to enter a block (and from which one it comes), or at the end. -/
inductive Pos
  | start
  | edge (p b : Blk)
  | stop
deriving DecidableEq

structure State (K V W : Type) where
  pos : Pos
  env : K → V
  world : W

/-- Where to go after block `b`. -/
def leave (c : Cfg) (b next : Nat) : Pos := match (c.succs b)[next]? with | some s => .edge b s | none => .stop

/-- One block of the function before the conversion. -/
def runBlock {V W : Type} (c : Cfg) (I : Interp V W) (st : State Var V W) (b : Blk) : State Var V W :=
  let r := runOps I st.env st.world (c.ops b)
  ⟨leave c b (I.next r.2), r.1, r.2⟩

def step {V W : Type} (c : Cfg) (I : Interp V W) (st : State Var V W) : State Var V W :=
  match st.pos with
  | .stop => st
  | .start => runBlock c I st 0
  | .edge _ b => runBlock c I st b

def run {V W : Type} (c : Cfg) (I : Interp V W) (st : State Var V W) : Nat → State Var V W
  | 0 => st
  | n + 1 => step c I (run c I st n)

/-- The phi functions of block `b` coming from `p`: all arguments, at the position of `p` among the predecessors, are read
before any result is written. -/
def phiVals {V : Type} (o : Out) (env : Var × Nat → V) (b : Blk) (i : Nat) : List (Var × Nat) → Option (List V)
  | [] => some []
  | x :: xs =>
    (o.args b x.1 i).bind fun k => (phiVals o env b i xs).bind fun vs => some (env (x.1, k) :: vs)

/-- One block of the function after the conversion; without a predecessor there must be no phi function. -/
def runBlockS {V W : Type} [Inhabited V] (c : Cfg) (o : Out) (I : Interp V W) (st : State (Var × Nat) V W) (p : Option Blk)
    (b : Blk) : Option (State (Var × Nat) V W) :=
  (match p with
    | none => if o.phis b = [] then some st.env else none
    | some p => (phiVals o st.env b ((c.preds b).idxOf p) (o.phis b)).bind fun vs =>
        some (assign st.env (o.phis b) fun i => vs.getD i default)).bind fun env =>
  let r := runOps I env st.world (o.ops b)
  some ⟨leave c b (I.next r.2), r.1, r.2⟩

def stepS {V W : Type} [Inhabited V] (c : Cfg) (o : Out) (I : Interp V W) (st : State (Var × Nat) V W) :
    Option (State (Var × Nat) V W) :=
  match st.pos with
  | .stop => some st
  | .start => runBlockS c o I st none 0
  | .edge p b => runBlockS c o I st (some p) b

def runS {V W : Type} [Inhabited V] (c : Cfg) (o : Out) (I : Interp V W) (st : State (Var × Nat) V W) :
    Nat → Option (State (Var × Nat) V W)
  | 0 => some st
  | n + 1 => (runS c o I st n).bind fun st => stepS c o I st

end Nature.Ssa
