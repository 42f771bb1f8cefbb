import Verif.Sched.Model
/-
What instructions do, as far as it matters for their order: the places they read and write.
-/
namespace Nature.Sched

/-- A place that holds something: a variable, a register of the machine, or the memory (with all global variables and the stack). -/
inductive Loc where
  | var (v : Nat)
  | unit (fl : Bool) (n : Nat)
  | mem
deriving DecidableEq, Repr

/-- The register of the machine a register is (a part of): ah is a part of the register 0. -/
def Reg.unit (r : Reg) : Loc := .unit r.fl (if r.high then r.index - 4 else r.index)

def Part.locs : Option Part → List Loc
  | some (.var v) => [.var v]
  | some (.reg r) => [r.unit]
  | none => []

/-- The places the address of an operand is computed from. -/
def Operand.addr : Operand → List Loc
  | .ind b i => Part.locs b ++ Part.locs i
  | _ => []

/-- The places an operand is read from, with those of its address. -/
def Operand.places : Operand → List Loc
  | .var v => [.var v]
  | .reg r => [r.unit]
  | .regs rs => rs.map Reg.unit
  | .ind b i => Part.locs b ++ Part.locs i ++ [.mem]
  | .sym _ => [.mem]
  | .stack _ => [.mem]
  | _ => []

/-- The operands of an instruction other than its output. -/
def Op.inputs (op : Op) : List Operand := op.first.toList ++ op.second.toList ++ op.addend.toList

/-- What an instruction reads.  `lea` takes the address of its operand, not what is there. -/
def Op.reads (op : Op) : List Loc :=
  (op.inputs.flatMap Operand.places).filter (fun l => decide (op.code = .lea → l ≠ .mem)) ++ op.output.toList.flatMap Operand.addr

/-- What an instruction changes: its output, and with a pair of registers as operand (the division of amd64) both of them. -/
def Op.writes (op : Op) : List Loc :=
  (match op.output with
    | some (.var v) => [.var v]
    | some (.reg r) => [r.unit]
    | some (.ind _ _) => [.mem]
    | some (.sym _) => [.mem]
    | some (.stack _) => [.mem]
    | _ => []) ++
  (match op.first with
    | some (.regs rs) => rs.map Reg.unit
    | _ => [])

/-- The instructions that stay in place: calls, jumps, labels, safepoints, the beginning and the end of a function, returns. -/
def Op.barrier (op : Op) : Prop :=
  op.code ∈ [Code.label, .phi, .safepoint, .fnBegin, .fnEnd, .call, .rtCall, .branch, .ret, .return]

instance (op : Op) : Decidable op.barrier := by unfold Op.barrier; infer_instance

/-- A state: what is in every place. -/
abbrev State (V : Type) := Loc → V

/-- A meaning of instructions that keeps to `reads` and `writes`: an instruction that is not such a barrier changes nothing else, and what it
puts there depends on nothing else (than what it reads and what was there).  Barriers (calls, jumps, …) may do anything. -/
structure Meaning (V : Type) where
  exec : Op → State V → State V
  frame : ∀ op s l, ¬ op.barrier → l ∉ op.writes → exec op s l = s l
  depends : ∀ op s s' l, ¬ op.barrier → l ∈ op.writes → (∀ x, x ∈ op.reads ∨ x ∈ op.writes → s x = s' x) → exec op s l = exec op s' l

/-- Instructions one after the other. -/
def run {V : Type} (m : Meaning V) : List Op → State V → State V
  | [], s => s
  | op :: ops, s => run m ops (m.exec op s)

/-- The segments of a block: the instructions between barriers. -/
def segments : (seg : List Op) → List Op → List (List Op)
  | seg, [] => [seg]
  | seg, op :: ops => if op.barrier then seg :: segments [] ops else segments (seg ++ [op]) ops

/-! ### Where scheduling is right

Three conditions on the instructions of a segment. -/

/-- Variables: one that is assigned again was not read before, but by instructions that assign it as well, and is read by the
instruction that assigns it again.  (In single assignment form no variable is assigned again.  The two address instructions of
amd64 have this form: move t, a; add t, b, t.) -/
def VarsOk (ops : List Op) : Prop :=
  ∀ (i j : Nat) (a b : Op) (v : Nat), i < j → ops[i]? = some a → ops[j]? = some b →
    .var v ∈ b.writes → .var v ∈ a.reads ∨ .var v ∈ a.writes → .var v ∈ a.writes ∧ .var v ∈ b.reads

/-- The registers an instruction has as operands, other than its output and those in addresses. -/
def Operand.inRegs : Operand → List Reg
  | .reg r => [r]
  | .regs rs => rs
  | _ => []
def Op.inRegs (op : Op) : List Reg := op.inputs.flatMap Operand.inRegs

/-- The instruction uses a register with the number `n`; it defines one. -/
def UsesReg (id : Reg → Nat) (op : Op) (n : Nat) : Prop := ∃ r ∈ op.inRegs, id r = n
def DefsReg (id : Reg → Nat) (op : Op) (n : Nat) : Prop := ∃ r, op.output = some (.reg r) ∧ id r = n
/-- The registers an instruction changes without naming them as its output. -/
def ClobbersReg (id : Reg → Nat) (op : Op) (n : Nat) : Prop := ∃ rs r, op.first = some (.regs rs) ∧ r ∈ rs ∧ id r = n

/-- Registers: the parts of one register have the same number; registers in addresses are not changed; and between two instructions
that use a register, it is given a new value (by the first or one in between), or it is not changed any more. -/
def RegsOk (id : Reg → Nat) (ops : List Op) : Prop :=
  (∀ a ∈ ops, ∀ b ∈ ops, ∀ r s : Reg, r ∈ a.inRegs ∨ a.output = some (.reg r) → s ∈ b.inRegs ∨ b.output = some (.reg s) →
    r.unit = s.unit → id r = id s) ∧
  (∀ a ∈ ops, ∀ b ∈ ops, ∀ o ∈ a.inputs ++ a.output.toList, ∀ (f : Bool) (u : Nat), .unit f u ∈ o.addr → .unit f u ∉ b.writes) ∧
  (∀ (i k : Nat) (a b : Op) (n : Nat), i < k → ops[i]? = some a → ops[k]? = some b → UsesReg id a n → UsesReg id b n →
    (ClobbersReg id a n ∨ ∃ (j : Nat) (c : Op), k ≤ j ∧ ops[j]? = some c ∧ (DefsReg id c n ∨ ClobbersReg id c n)) →
    ∃ (d : Nat) (c : Op), i ≤ d ∧ d < k ∧ ops[d]? = some c ∧ DefsReg id c n)

/-- Memory: if the segment changes memory, all its instructions that touch memory do so through an address in a variable or
register that is the first, the second or the output operand. -/
def MemOk (ops : List Op) : Prop :=
  (∃ a ∈ ops, Loc.mem ∈ a.writes) →
    ∀ a ∈ ops, Loc.mem ∈ a.reads ∨ Loc.mem ∈ a.writes →
      ∃ b i, some (Operand.ind b i) ∈ [a.first, a.second, a.output]

end Nature.Sched
