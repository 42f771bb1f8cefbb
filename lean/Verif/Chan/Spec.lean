import Verif.Chan.Model
import Verif.Chan.LockSpec
/-! What channels promise (C21, C22): vocabulary over the events of a history, independent of how channels work. -/
namespace Nature.Chan
open Nature
variable {V : Type}

/-- The values channel `c` accepted from senders, in the order of acceptance. -/
def accepted (c : Nat) (evs : List (Ev V)) : List V :=
  evs.filterMap fun | .sent c' _ v _ => if c' = c then some v else none | _ => none
/-- The times at which the accepted sends on `c` were called, in the order of acceptance. -/
def acceptedAt (c : Nat) (evs : List (Ev V)) : List Nat :=
  evs.filterMap fun | .sent c' _ _ a => if c' = c then some a else none | _ => none
/-- The values channel `c` delivered to receivers, in the order of delivery. -/
def delivered (c : Nat) (evs : List (Ev V)) : List V :=
  evs.filterMap fun | .rcvd c' _ v => if c' = c then some v else none | _ => none
/-- The values any channel delivered to coroutine `co`. -/
def deliveredTo (co : Nat) (evs : List (Ev V)) : List V :=
  evs.filterMap fun | .rcvd _ co' v => if co' = co then some v else none | _ => none
/-- How many values of `co` any channel accepted. -/
def acceptedFrom (co : Nat) (evs : List (Ev V)) : Nat :=
  evs.countP fun | .sent _ co' _ _ => decide (co' = co) | _ => false

/-- The value a return hands to the program. -/
def Ret.value : Ret V → Option V
  | .recvOk _ v => some v
  | .picked _ true m => m
  | _ => none
/-- The return reports that a value was sent. -/
def Ret.isSent : Ret V → Bool
  | .sendOk _ => true
  | .picked _ true none => true
  | _ => false

/-- The values the receive operations of `co` returned to the program. -/
def returned (co : Nat) (evs : List (Ev V)) : List V :=
  evs.filterMap fun | .ret co' r => if co' = co then r.value else none | _ => none
/-- How many send operations of `co` returned successfully. -/
def sentOk (co : Nat) (evs : List (Ev V)) : Nat :=
  evs.countP fun | .ret co' r => decide (co' = co) && r.isSent | _ => false

/-- A value already handed to a coroutine that has been woken but has not run yet. -/
def inFlight : CoSt V → List V
  | .waiting _ (some r) => if r.ok = true then r.msg.toList else []
  | _ => []
/-- A send already completed for a coroutine that has been woken but has not run yet. -/
def inFlightSend : CoSt V → Nat
  | .waiting _ (some r) => if r.ok = true ∧ r.msg.isNone = true then 1 else 0
  | _ => 0

/-- Coroutine `co` is blocked (and nobody has woken it) wanting to send to / receive from `c`, alone or as one case of a `select`. -/
def Blocked (w : World V) (co : Nat) (d : Dir) (c : Nat) : Prop :=
  w.cos co = .waiting (.op d c) none ∨
    ∃ cases, w.cos co = .waiting (.select cases) none ∧ ∃ cs ∈ cases, cs.dir = d ∧ cs.ch = c

/-- The operations the theorems cover: a blocking `select` keeps the cases of one channel together (see C23) and every receive case stores its
value in a variable (see C43). -/
def Safe : Op V → Prop
  | .select _ cases try_ => (try_ = false → Grouped (cases.map Case.ch)) ∧ ∀ cs ∈ cases, cs.bound = true
  | _ => True

/-- What an operation blocked on a channel returns when the channel is closed. -/
def closedRet (d : Dir) (c : Nat) : Ret V :=
  match d with
  | .send => .sendClosed c
  | .recv => .recvClosed c

/-- A `select` case that can go ahead: its channel is closed, or its buffer allows the operation, or a partner is blocked. -/
def CaseReady (w : World V) (cap : Nat → Nat) (held : Nat → List V) : Case V → Prop
  | .send c _ => (w.chans c).closed = true ∨ (held c).length < cap c ∨ ∃ x, Blocked w x .recv c
  | .recv c _ => (w.chans c).closed = true ∨ held c ≠ [] ∨ ∃ x, Blocked w x .send c

/-- The communication of `co` an event records: the direction, the channel and the value. -/
def commOf (co : Nat) : Ev V → Option (Dir × Nat × V)
  | .sent c co' v _ => if co' = co then some (.send, c, v) else none
  | .rcvd c co' v => if co' = co then some (.recv, c, v) else none
  | .ret _ _ => none

/-- The last communication coroutine `co` took part in. -/
def lastComm (co : Nat) : List (Ev V) → Option (Dir × Nat × V)
  | [] => none
  | e :: es => (lastComm co es).or (commOf co e)

end Nature.Chan
