import Verif.Chan.LockModel
/-! Specification for C23: what a correct use of mutexes is. -/
namespace Nature.Chan

/-- A lock operation on the channel at an address. -/
inductive LOp
  | lock (c : Nat)
  | unlock (c : Nat)
  deriving DecidableEq, Repr

/-- One thread performs lock operations, starting with `held`: locking a mutex it holds (it would wait for itself) and unlocking
one it does not hold are errors (`none`).  The result is what it holds at the end. -/
def exec : List Nat → List LOp → Option (List Nat)
  | held, [] => some held
  | held, .lock c :: ops => if c ∈ held then none else exec (c :: held) ops
  | held, .unlock c :: ops => if c ∈ held then exec (held.erase c) ops else none

/-- Equal channels stand next to each other in the case list. -/
def Grouped (cs : List Nat) : Prop :=
  ∀ (i j k : Nat) (x : Nat), i < j → j < k → cs[i]? = some x → cs[k]? = some x → cs[j]? = some x

end Nature.Chan
