import Verif.Queue.Model
/-
What is in a queue, seen by following its pointers.
-/
namespace Nature.Queue

/-- Following successors from `a` leads to `z` through the nodes and values `xs`, in this order. -/
inductive Chain (m : Nat → Option Node) (z : Nat) : Nat → List (Nat × Nat) → Prop
  | done : Chain m z z []
  | node (a : Nat) (n : Node) (xs : List (Nat × Nat)) :
      a ≠ z → m a = some n → Chain m z n.succ xs → Chain m z a ((a, n.value) :: xs)

/-- The queue holds the entries `xs` (handle and value), first to last. -/
def Holds (q : Q) (xs : List (Nat × Nat)) : Prop := Chain q.mem q.rear q.head xs

/-- Runs of a queue: any sequence of operations, removals being of nodes that are in the queue. -/
inductive Reachable : Q → Prop
  | init (e : Nat) : e ≠ 0 → Reachable (init e)
  | push (q q' : Q) (a v : Nat) : Reachable q → Fresh q a → push q a v = some q' → Reachable q'
  | pushFront (q q' : Q) (a v : Nat) : Reachable q → Fresh q a → pushFront q a v = some q' → Reachable q'
  | pop (q q' : Q) (v : Nat) : Reachable q → pop q = some (v, q') → Reachable q'
  | remove (q q' : Q) (xs : List (Nat × Nat)) (a v : Nat) : Reachable q → Holds q xs → (a, v) ∈ xs →
      remove q a = some q' → Reachable q'

/-- A queue of values, as its users see it. -/
inductive Op
  | push (v : Nat)
  | pushFront (v : Nat)
  | pop
  /-- remove the `i`th entry from the head -/
  | removeAt (i : Nat)

/-- The abstract queue: contents and values popped so far. -/
def absStep (s : List Nat × List Nat) : Op → List Nat × List Nat
  | .push v => (s.1 ++ [v], s.2)
  | .pushFront v => (v :: s.1, s.2)
  | .pop => (s.1.tail, s.2 ++ [s.1.headD 0])
  | .removeAt i => (s.1.eraseIdx i, s.2)

/-- One operation of the code; `a` is the address the allocator returns if asked.  A removal is given the node found
by following `i` successors from the head. -/
inductive ConcStep : Q × List Nat → Op → Q × List Nat → Prop
  | push (q q' : Q) (out : List Nat) (a v : Nat) : Fresh q a → Queue.push q a v = some q' →
      ConcStep (q, out) (.push v) (q', out)
  | pushFront (q q' : Q) (out : List Nat) (a v : Nat) : Fresh q a → Queue.pushFront q a v = some q' →
      ConcStep (q, out) (.pushFront v) (q', out)
  | pop (q q' : Q) (out : List Nat) (v : Nat) : Queue.pop q = some (v, q') →
      ConcStep (q, out) .pop (q', out ++ [v])
  | removeAt (q q' : Q) (out : List Nat) (i : Nat) (xs : List (Nat × Nat)) (e : Nat × Nat) : Holds q xs →
      xs[i]? = some e → Queue.remove q e.1 = some q' → ConcStep (q, out) (.removeAt i) (q', out)
  | removeNone (q : Q) (out : List Nat) (i : Nat) (xs : List (Nat × Nat)) : Holds q xs → xs.length ≤ i →
      ConcStep (q, out) (.removeAt i) (q, out)

/-- A run of the code over a sequence of operations. -/
inductive ConcRun : Q × List Nat → List Op → Q × List Nat → Prop
  | nil (s) : ConcRun s [] s
  | cons (s s' s'' o os) : ConcStep s o s' → ConcRun s' os s'' → ConcRun s (o :: os) s''

end Nature.Queue
