import Verif.Span.Model
import Verif.Bitmap.Spec
/-! Specification vocabulary for spans: histories of allocations, client writes, marks and sweeps. -/
namespace Nature.Span
open Nature.Bitmap (Bytes)

/-- Is slot `i` flagged in the bitmap? -/
def isSet (bits : Bytes) (i : Nat) : Bool := Bitmap.bit bits i == some true

/-- The flagged slots among the first `n`, in ascending order. -/
def slots (bits : Bytes) (n : Nat) : List Nat := (List.range n).filter (isSet bits)

/-- A history so far: the world, and (bookkeeping of the calls made) the slots that are live — handed out or
marked in the last cycle — and the slots marked since the last sweep. -/
structure St where
  w : World
  live : List Nat
  marked : List Nat

/-- What the program and the collector do to a span.  `write` is a store of a byte into a live object. -/
inductive Op
  | alloc
  | write (a : Nat) (v : BitVec 8)
  | mark (i : Nat)
  | sweep

/-- Slot of an address of the span. -/
def slotOf (s : Span) (a : Nat) : Nat := (a - s.base) / s.objSize

/-- One step of a history; `none` = the step is impossible or the runtime aborts.  `strict` says that only live
slots are marked (the pointers the collector follows are valid). -/
def step (strict : Bool) (s : St) : Op → Option St
  | .alloc =>
    match stdMalloc s.w with
    | none => none
    | some (addr, w') => some ⟨w', slotOf s.w.span addr :: s.live, s.marked⟩
  | .write a v =>
    if ∃ i ∈ s.live, s.w.span.base + i * s.w.span.objSize ≤ a ∧ a < s.w.span.base + i * s.w.span.objSize + s.w.span.objSize
    then some { s with w := { s.w with mem := fun x => if x = a then v else s.w.mem x } }
    else none
  | .mark i =>
    if i < s.w.span.objCount ∧ (strict = true → i ∈ s.live) then
      match mark s.w i with
      | none => none
      | some w' => some ⟨w', s.live, if i ∈ s.marked then s.marked else i :: s.marked⟩
    else none
  | .sweep =>
    match sweepSpan s.w with
    | none => none
    | some (_, w') => some ⟨w', s.marked, []⟩

/-- A whole history.  (A span without a marked slot is returned to the heap by the sweep; the histories here may
continue with it, which only makes the theorems about them stronger.) -/
def run (strict : Bool) : St → List Op → Option St
  | s, [] => some s
  | s, op :: ops => (step strict s op).bind (run strict · ops)

/-- The span a history starts from: fresh from `mspan_new`, its memory zeroed by the OS. -/
def Fresh (w : World) (base pages classSize : Nat) : Prop :=
  w.span = mspanNew base pages classSize ∧ 0 < base ∧ 0 < pages ∧
  (∀ x, base ≤ x → x < base + pages * 8192 → w.mem x = 0#8) ∧
  0 < w.span.objCount ∧ w.span.objCount ≤ 1024

/-- `[a, a + n)` and `[b, b + n)` have no byte in common. -/
def Disj (n a b : Nat) : Prop := a + n ≤ b ∨ b + n ≤ a

end Nature.Span
