import Verif.ConcGc.Model
/-! Specification vocabulary: reachability, and the runs for which the collector is proved safe. -/
namespace Nature.ConcGc

/-- Object `o` has a field that points to object `y`. -/
def Child (s : St) (o y : Nat) : Prop := some y ∈ s.heap o

/-- The program can reach the object: from the stack of a coroutine or a global variable, through fields. -/
inductive Reach (s : St) : Nat → Prop
  | stack (c y : Nat) (hc : c < s.cos) (h : y ∈ s.stack c) : Reach s y
  | glob (y : Nat) (h : some y ∈ s.globals) : Reach s y
  | field (o y : Nat) (ho : Reach s o) (h : Child s o y) : Reach s y

/-- A white object: neither marked nor waiting to be. -/
def White (s : St) (o : Nat) : Prop := s.marked o = false ∧ o ∉ s.pending

/-- Storing `v` in the slot does not overwrite the pointer of a heap object to a white object. -/
def Keeps (s : St) (l : Loc) (v : Option Nat) : Prop :=
  match l with
  | .glob _ => True
  | .heap o i => ∀ x, (s.heap o)[i]? = some (some x) → v = some x ∨ ¬ White s x

/-- The event neither overwrites a pointer to a white object, nor sends on a channel from a coroutine whose stack
has not been scanned (to a buffer, or to a coroutine whose stack has), nor races with another store to the same
slot. -/
def Safe (s : St) : Ev → Prop
  | .move _ l v => Keeps s l v
  | .commit c => ∀ l v, s.flight c = .barriered l v → Keeps s l v
  | .post c => ∀ l v, s.flight c = .moved l v → readLoc s l = some v
  | .sendBuf c o i y => s.black c = true ∧ Keeps s (.heap o i) (some y)
  | .sendTo c d _ => s.black c = true ∨ s.black d = false
  | _ => True

/-- A run all of whose events are safe. -/
inductive SafeRun : St → St → Prop
  | refl (s : St) : SafeRun s s
  | step (a b c : St) (e : Ev) (h : SafeRun a b) (hs : Safe b e) (he : apply b e = some c) : SafeRun a c

end Nature.ConcGc
