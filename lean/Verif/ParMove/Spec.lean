import Verif.ParMove.Model
/-!
What simultaneous moves mean (C36).  A machine state gives every location a value; the
machine (how an address is loaded, what each operation computes) is arbitrary.
-/
namespace Nature.ParMove

/-- An arbitrary machine with values in `V`.  Memory reached through an address is not
changed by the instructions considered here, which write only registers and slots. -/
structure Machine (V : Type) where
  load : Option V → Option V → Int → Int → V
  alu : Nat → V → Option V → V
  imm : Nat → V

abbrev State (V : Type) := Loc → V

/-- The value of an operand. -/
def Machine.eval {V : Type} (M : Machine V) (σ : State V) : Opd → V
  | .reg r => σ (.reg r)
  | .stack s _ => σ (.stack s)
  | .addr b i off sc _ => M.load (b.map fun r => σ (.reg r)) (i.map fun r => σ (.reg r)) off sc
  | .imm v => M.imm v

/-- The value an instruction computes. -/
def Machine.value {V : Type} (M : Machine V) (σ : State V) (op : Op) : V :=
  match op.code with
  | .move => M.eval σ op.first
  | .alu c => M.alu c (M.eval σ op.first) (op.second.map (M.eval σ))

/-- One ordinary instruction: compute, then write the output. -/
def Machine.exec {V : Type} (M : Machine V) (σ : State V) (op : Op) : State V :=
  fun l => if l = op.out then M.value σ op else σ l

/-- Ordinary instructions, one after the other. -/
def Machine.run {V : Type} (M : Machine V) (σ : State V) (l : List Op) : State V := l.foldl M.exec σ

/-- `σ'` is what the instructions `l`, done at the same time in `σ`, must give: every
output holds the value computed from the old state, and everything else is unchanged,
except possibly the scratch registers. -/
def Simultaneous {V : Type} (M : Machine V) (scratch : Loc → Prop) (l : List Op) (σ σ' : State V) : Prop :=
  (∀ op ∈ l, σ' op.out = M.value σ op) ∧
  (∀ x, (∀ op ∈ l, op.out ≠ x) → ¬ scratch x → σ' x = σ x)

/-- The two scratch registers reserved by the target. -/
def Scratch (A : Arch) (l : Loc) : Prop := l = .reg ⟨false, A.int⟩ ∨ l = .reg ⟨true, A.float⟩

/-- The locations an operand mentions. -/
def Opd.locs : Opd → List Loc
  | .reg r => [.reg r]
  | .stack s _ => [.stack s]
  | .addr b i _ _ _ => (b.toList ++ i.toList).map .reg
  | .imm _ => []

/-- The locations an instruction reads. -/
def Op.reads (op : Op) : List Loc := op.first.locs ++ (op.second.toList.flatMap Opd.locs)

end Nature.ParMove
