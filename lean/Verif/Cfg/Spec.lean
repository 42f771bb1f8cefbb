/-
What the construction of the control flow graph has to achieve: running code.
-/
import Verif.Cfg.Model
namespace Nature.Cfg

/-- What operations and conditions mean: they change and inspect `W`, which is everything: variables, memory, output. -/
structure Sem (W : Type) where
  op : Nat → W → W
  cond : Nat → W → Bool

/-- Where to go on at a label. -/
abbrev Jumps := Label → Option (List Ins)

/-- One operation; `none`: at the end, or at a jump to a label that is not there. -/
def step {W : Type} (J : Jumps) (S : Sem W) : List Ins × W → Option (List Ins × W)
  | ([], _) => none
  | (.label _ :: r, w) => some (r, w)
  | (.op c :: r, w) => some (r, S.op c w)
  | (.bal l :: _, w) => (J l).map fun s => (s, w)
  | (.br c l :: r, w) => if S.cond c w then (J l).map fun s => (s, w) else some (r, w)

/-- Any number of operations. -/
inductive Steps {W : Type} (J : Jumps) (S : Sem W) : List Ins × W → List Ins × W → Prop
  | refl (x : List Ins × W) : Steps J S x x
  | step {x y z : List Ins × W} : step J S x = some y → Steps J S y z → Steps J S x z

/-- The state is `w'` at some time. -/
def Visits {W : Type} (J : Jumps) (S : Sem W) (start : List Ins) (w w' : W) : Prop := ∃ r, Steps J S (start, w) (r, w')

/-- The end is reached, with `w'`. -/
def Ends {W : Type} (J : Jumps) (S : Sem W) (start : List Ins) (w w' : W) : Prop := Steps J S (start, w) ([], w')

/-- The code of a function: a jump goes to the place of its label. -/
def codeJumps (code : List Ins) : Jumps := fun l =>
  match code with
  | [] => none
  | i :: r => if i = .label l then some (i :: r) else codeJumps r l

/-- A graph: a jump goes to the beginning of the block of that name.  There is no falling through. -/
def graphJumps (g : Graph) : Jumps := fun l => (g.find? (·.name == l)).map (·.ops)

/-- The code with which a graph starts: that of the first block. -/
def entryOps (g : Graph) : List Ins := match g with | [] => [] | b :: _ => b.ops

def labels (code : List Ins) : List Label := code.filterMap fun i => match i with | .label l => some l | _ => none

/-- Code as linear.c makes it: labels occur once, and are below `t`. -/
structure CodeOk (t : Nat) (code : List Ins) : Prop where
  nodup : (labels code).Nodup
  fresh : ∀ i ∈ code, match i with | .label l => l < t | .bal l => l < t | .br _ l => l < t | .op _ => True

/-- Where an operation may go. -/
def goes : Ins → Option Label
  | .bal l => some l
  | .br _ l => some l
  | _ => none

/-- A block is reached from the first one. -/
inductive Reach (g : Graph) : Label → Prop
  | entry {b : Block} {r : Graph} : g = b :: r → Reach g b.name
  | succ {b : Block} {s : Label} : b ∈ g → Reach g b.name → s ∈ b.succs → Reach g s

/-- An edge from a block with several successors to one with several predecessors. -/
def Critical (g : Graph) (p b : Block) : Prop := p ∈ g ∧ b ∈ g ∧ b.name ∈ p.succs ∧ 1 < p.succs.length ∧ 1 < b.preds.length

/-- A graph as the later passes need it. -/
structure Consistent (g : Graph) : Prop where
  /-- The blocks have different names. -/
  names : (g.map (·.name)).Nodup
  /-- A block is its label, operations that go nowhere, and nothing, a jump, or a branch and a jump to different places. -/
  blocks : ∀ b ∈ g, ∃ mid ends, b.ops = .label b.name :: (mid ++ ends) ∧ (∀ i ∈ mid, ∃ c, i = .op c) ∧
    (ends = [] ∨ (∃ l, ends = [.bal l]) ∨ ∃ c l l', l ≠ l' ∧ ends = [.br c l', .bal l])
  /-- The successors are the places where its branches go. -/
  succs : ∀ b ∈ g, b.succs.Nodup ∧ ∀ s, s ∈ b.succs ↔ ∃ i ∈ b.ops, goes i = some s
  /-- They are blocks of the graph. -/
  exist : ∀ b ∈ g, ∀ s ∈ b.succs, ∃ x ∈ g, x.name = s
  /-- The predecessors are the blocks that have it as a successor. -/
  preds : ∀ b ∈ g, b.preds.Nodup ∧ ∀ p, p ∈ b.preds ↔ ∃ x ∈ g, x.name = p ∧ b.name ∈ x.succs
  /-- All blocks are reached. -/
  reached : ∀ b ∈ g, Reach g b.name

/-- Neighbours in a list. -/
def Adjacent (l : List Label) (p q : Label) : Prop := ∃ a b, l = a ++ p :: q :: b

end Nature.Cfg
