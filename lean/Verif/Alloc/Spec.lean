import Verif.Alloc.Model
import Verif.Ranges.Spec
/-
What register allocation promises, independent of the algorithm.
-/
namespace Nature.Alloc
open Nature.Ranges (Range Covers Sorted NonEmpty)

/-- Variable `v` is live at position `p`. -/
def Live (v : Var) (p : Int) : Prop := Covers v.ranges p

/-- The register `r` is taken at position `p`: by a call, an argument or an instruction that names
it. -/
def Taken (F : Func) (r : Nat) (p : Int) : Prop := Covers (F.fixed r) p

/-- Two homes that can hold two values at the same time. -/
def Apart : Home → Home → Prop
  | .reg a, .reg b => a ≠ b
  | .stack o n, .stack o' n' => o + n ≤ o' ∨ o' + n' ≤ o
  | _, _ => True

/-- Two neighbouring blocks. -/
def Next (bs : List Blk) (q b : Blk) : Prop := ∃ pre post, bs = pre ++ q :: b :: post

/-- The numbering of the operations (`mark_number`, src/register/linearscan.c:193-247): ids grow, a
label is at least 4 before the branch that ends its block, and every block but the last one ends in
one or two branches. -/
structure Numbered (bs : List Blk) : Prop where
  grow : ∀ q b, Next bs q b → q.last < b.label ∧ q.label < b.label ∧ (q.succs = 1 ∨ q.succs = 2)
  size : ∀ b ∈ bs, 0 ≤ b.label ∧ b.label + 4 ≤ b.last

/-- No operand between the last branch of a block but one and the first operation of the next
block: the unconditional branch and the label have no operands. -/
def NoGap (bs : List Blk) (u : Int) : Prop := ∀ q b, Next bs q b → u ≤ q.last - 2 ∨ u > b.label + 1

/-- A variable as the construction of the live ranges leaves it: separated, increasing, non-empty
ranges that start after the entry label; use positions in order, the first one possibly the
definition, the others at operations before which the variable is live. -/
structure Var.Ok (bs : List Blk) (v : Var) : Prop where
  sorted : Sorted v.ranges
  nonEmpty : NonEmpty v.ranges
  pos : ∀ r ∈ v.ranges, 0 < r.lo
  entry : ∀ b, bs.head? = some b → ∀ r ∈ v.ranges, b.label < r.lo
  order : v.uses.Pairwise fun a b => a.pos ≤ b.pos
  uses : ∀ u ∈ v.uses, (∃ r, v.ranges.head? = some r ∧ u.pos = r.lo) ∨ (Live v (u.pos - 1) ∧ NoGap bs u.pos)

/-- What the construction of the live ranges hands over. -/
structure Func.Ok (F : Func) : Prop where
  numbered : Numbered F.cfg.blocks
  vars : ∀ v ∈ F.vars, v.Ok F.cfg.blocks
  fixed : ∀ r, Sorted (F.fixed r) ∧ NonEmpty (F.fixed r)
  frame : 0 ≤ F.stackOffset

/-- No block lies in a loop, or the innermost loop around it contains a call: then splitting never
moves a split out of a loop. -/
def NoHoist (F : Func) : Prop :=
  ∀ b ∈ F.cfg.blocks, b.depth = 0 ∨ (b.index ≥ 0 ∧ b.hasCall = true)

/-- The variable begins at `u`: the operation `u` defines it, the operand is an output. -/
def begins (v : Var) (u : Int) : Bool := decide (v.ranges.head?.map (·.lo) = some u)

/-- A move between two parts of variable `k` was inserted at `p`. -/
def MoveAt (F : Func) (s : St) (k : Nat) (p : Int) : Prop :=
  ∃ m ∈ s.moves, m.pos = p ∧ (s.heap m.src).parent.getD m.src = F.cfg.nregs + k ∧
    (s.heap m.dst).parent.getD m.dst = F.cfg.nregs + k

end Nature.Alloc
