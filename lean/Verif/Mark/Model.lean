import Verif.ArenaBits.Model
/-
Model of the mark phase with the world stopped: /repo/runtime/collector.c:638-765 and 977-991
(`handle_gc_ptr`, `handle_gc_worklist`, `gc_mark_done`) on top of the pointer bitmap (ArenaBits).

The heap contents do not change while the world is stopped.  The mark bit of object number `k` of a span is
represented by the object's address `base + k * obj_size` being in the list `marked`; which bit that is, and that
distinct objects have distinct bits, is the subject of C01 and C10.  The work lists of the processors and the
global one are one bag of pending addresses, because which processor serves which address, and in what order,
depends on the schedule.  Testing and setting a mark bit happens under the span's lock, so one pending address
is one step.  A failed assertion, a missing arena and a read outside a bit array are the outcome `none`.
-/
namespace Nature.Mark
open Nature.ArenaBits (scanKind)

/-- The fields of `mspan_t` the mark phase uses (runtime/runtime.h:184-209); `hasPtr` is
`spanclass_has_ptr(span->spanclass)` (runtime/memory.h:90-92). -/
structure SpanInfo where
  base : Nat
  stop : Nat
  objSize : Nat
  objCount : Nat
  hasPtr : Bool
  deriving DecidableEq

/-- The heap as the mark phase sees it: `spanOf` is `span_of` (runtime/allocator.c:1332-1353, `none` = NULL),
`kinds` the pointer bitmap, `load` the word stored at an address (`fetch_addr_value`). -/
structure Heap where
  spanOf : Nat → Option SpanInfo
  kinds : ArenaBits.Heap
  load : Nat → Nat

/-- collector.c:647-653: the start of the object that contains `addr`. -/
def objStart (s : SpanInfo) (addr : Nat) : Nat := s.base + (addr - s.base) / s.objSize * s.objSize

/-- collector.c:690-720: the scan of the words of the object at `obj`, from `temp` on; the result is the list of
addresses pushed to the work list. -/
def scanObj (h : Heap) (obj stop temp : Nat) : Option (List Nat) :=
  if temp < stop then
    match scanKind h.kinds obj temp with
    | none => none
    | some isPtr =>
      match scanObj h obj stop (temp + 8) with
      | none => none
      | some rest =>
        if isPtr && (h.spanOf (h.load temp)).isSome then some (h.load temp :: rest) else some rest
  else some []
termination_by stop - temp

/-- State of the mark phase: marked objects and pending addresses. -/
structure St where
  marked : List Nat
  pending : List Nat

/-- collector.c:638-726 `handle_gc_ptr`: the new marks and the addresses pushed.  `none` = an assertion fails
or memory outside a bit array is read. -/
def handleGcPtr (h : Heap) (marked : List Nat) (addr : Nat) : Option (List Nat × List Nat) :=
  match h.spanOf addr with
  | none => none
  | some s =>
    if s.objSize = 0 then none
    else
      let obj := objStart s addr
      if obj ∈ marked then some (marked, [])
      else if s.hasPtr then
        match scanObj h obj (obj + s.objSize) obj with
        | none => none
        | some pushed => some (obj :: marked, pushed)
      else some (obj :: marked, [])

/-- One step of the mark phase (collector.c:745-760, 981-988): pop any pending address, handle it, add what it
pushed. -/
inductive Step (h : Heap) : St → St → Prop
  | serve (l1 l2 : List Nat) (a : Nat) (marked marked' pushed : List Nat)
      (he : handleGcPtr h marked a = some (marked', pushed)) :
      Step h ⟨marked, l1 ++ a :: l2⟩ ⟨marked', pushed ++ (l1 ++ l2)⟩

/-- The mark phase aborts (or reads outside its data) when some pending address cannot be handled. -/
def Stuck (h : Heap) (s : St) : Prop := ∃ a ∈ s.pending, handleGcPtr h s.marked a = none

end Nature.Mark
