import Verif.Linkco.Model
/-
What is in a waiter list or a channel queue, seen by following its pointers, and the runs of the runtime's queue
operations.
-/
namespace Nature.Linkco

/-- Following `next` from `a` leads to NULL through the cells and coroutines `xs`, in this order. -/
inductive Chain (m : Nat → Lc) : Nat → List (Nat × Nat) → Prop
  | done : Chain m 0 []
  | cell (a : Nat) (xs : List (Nat × Nat)) : a ≠ 0 → Chain m (m a).next xs → Chain m a ((a, (m a).co) :: xs)

/-- Queue `i` holds the entries `xs` (cell and waiting coroutine), first to last. -/
def Holds (s : St) (i : QId) (xs : List (Nat × Nat)) : Prop := Chain s.mem (s.q i).head xs

/-- Runs: any interleaving, on any processors, of the queue operations as the runtime calls them.  `out` is the set
of cells handed to callers by `rti_acquire_linkco` and not yet given back or queued. -/
inductive Reachable : St → (Nat → Prop) → Prop
  | init : Reachable init fun _ => False
  | acquire (s s' : St) (out : Nat → Prop) (p a b : Nat) : Reachable s out → a ≠ 0 → s.live a = false →
      acquire s p a = some (b, s') → Reachable s' fun x => x = b ∨ out x
  | release (s s' : St) (out : Nat → Prop) (p b : Nat) : Reachable s out → out b → release s p b = some s' →
      Reachable s' fun x => x ≠ b ∧ out x
  | push (s s' : St) (out : Nat → Prop) (p k v a : Nat) : Reachable s out → v ≠ 0 → a ≠ 0 → s.live a = false →
      listPush s p k v a = some s' → Reachable s' out
  | pushHead (s s' : St) (out : Nat → Prop) (p k v a : Nat) : Reachable s out → v ≠ 0 → a ≠ 0 → s.live a = false →
      listPushHead s p k v a = some s' → Reachable s' out
  | pop (s s' : St) (out : Nat → Prop) (p k v : Nat) : Reachable s out → listPop s p k = some (v, s') →
      Reachable s' out
  | remove (s s' : St) (out : Nat → Prop) (p k b : Nat) (xs : List (Nat × Nat)) : Reachable s out →
      Holds s (.list k) xs → b ∈ xs.map (·.1) → listRemove s p k b = some s' → Reachable s' out
  | waitPush (s s' : St) (out : Nat → Prop) (k b v : Nat) (sel : Bool) : Reachable s out → v ≠ 0 → out b →
      waitPush s k b v sel = some s' → Reachable s' fun x => x ≠ b ∧ out x
  /-- the cells dequeued go back to the coroutines that queued them -/
  | waitPop (s s' : St) (out : Nat → Prop) (k n b : Nat) (xs ys : List (Nat × Nat)) : Reachable s out →
      Holds s (.wait k) xs → waitPop k n s = some (b, s') → Holds s' (.wait k) ys →
      Reachable s' fun x => (x ∈ xs.map (·.1) ∧ x ∉ ys.map (·.1)) ∨ out x
  | waitRemove (s : St) (out : Nat → Prop) (k b : Nat) (xs : List (Nat × Nat)) : Reachable s out →
      Holds s (.wait k) xs → b ∈ xs.map (·.1) ∨ out b → Reachable (waitRemove s k b) fun x => x = b ∨ out x
  | selectReset (s : St) (out : Nat → Prop) (c : Nat) : Reachable s out → Reachable (selectReset s c) out
  | selectClear (s : St) (out : Nat → Prop) (b : Nat) : Reachable s out → Reachable (selectClear s b) out

/-- The entry a wake-up takes: the first one that does not belong to a select already decided. -/
def loser (s : St) (e : Nat × Nat) : Bool := (s.mem e.1).isSelect && s.done e.2

end Nature.Linkco
