/-
Model of a collection that runs while the program runs: /repo/runtime/collector.c (27-72 shading, 528-625 and
766-832 stack scan, 638-760 serving the work lists, 977-1102 phases), /repo/runtime/nutils/nutils.c:867-923 (write
barriers), /repo/runtime/allocator.c:1378-1382 (new objects), /repo/runtime/processor.c:513-523, 718-757 (new
coroutines) and /repo/runtime/rt_chan.c:152-180, 248-255 (channel messages).

Simplifications.  An object is a number with a list of pointer fields (`none` = nil); how words, bitmaps and
spans represent that is the subject of C09, C10 and C12.  A coroutine's stack is the list of pointers on it; it is
scanned in one step, because a coroutine does not run while its own processor scans it.  The work lists of the
processors and the global one are one list from which any element may be served at any time.  Everything here
happens between the start of the write barrier and the sweep, so no object is freed and no address reused.
Stores are not atomic: shading and storing are separate steps, between which collector threads and other
coroutines run.
-/
namespace Nature.ConcGc

/-- A pointer slot: a field of a heap object or a global variable. -/
inductive Loc
  | heap (o i : Nat)
  | glob (g : Nat)
  deriving DecidableEq

/-- A store in progress: `barriered` — `rti_write_barrier_ptr` has shaded and will now store;
`moved` — `rti_write_barrier_rtype` has done its `memmove` and will now run the barrier on the slot. -/
inductive Flight
  | idle
  | barriered (l : Loc) (v : Option Nat)
  | moved (l : Loc) (v : Option Nat)
  deriving DecidableEq

structure St where
  /-- pointer fields of the objects -/
  heap : Nat → List (Option Nat)
  /-- number of objects: all objects are below -/
  next : Nat
  globals : List (Option Nat)
  /-- pointers on the stack of a coroutine -/
  stack : Nat → List Nat
  /-- number of coroutines -/
  cos : Nat
  /-- `co->gc_black == memory->gc_count` -/
  black : Nat → Bool
  /-- `gcmark_bits` -/
  marked : Nat → Bool
  /-- the work lists -/
  pending : List Nat
  flight : Nat → Flight

def upd {α : Type} (f : Nat → α) (k : Nat) (v : α) : Nat → α := fun j => if j = k then v else f j

/-- The pointers in a list of fields. -/
def ptrs (l : List (Option Nat)) : List Nat := l.filterMap id

/-- collector.c:27-55 `shade_obj_grey` on an object: clear the mark bit, add to a work list. -/
def shade (s : St) (o : Nat) : St := { s with marked := upd s.marked o false, pending := o :: s.pending }

/-- `shade_obj_grey(slot)` of nutils.c:875: the slot's *object* is shaded; a slot outside the heap is skipped
(collector.c:31-34). -/
def shadeSlot (s : St) : Loc → St
  | .heap o _ => shade s o
  | .glob _ => s

/-- Contents of a slot; `none` when there is no such slot. -/
def readLoc (s : St) : Loc → Option (Option Nat)
  | .heap o i => (s.heap o)[i]?
  | .glob g => s.globals[g]?

/-- `*(void **) slot = v`. -/
def writeLoc (s : St) (l : Loc) (v : Option Nat) : St :=
  match l with
  | .heap o i => { s with heap := upd s.heap o ((s.heap o).set i v) }
  | .glob g => { s with globals := s.globals.set g v }

/-- nutils.c:874-894: the barrier proper, run by coroutine `c`: shade the slot's object; if the coroutine's stack
has not been scanned, shade the new value too. -/
def barrier (s : St) (c : Nat) (l : Loc) (v : Option Nat) : St :=
  let s1 := shadeSlot s l
  match v with
  | none => s1
  | some y => if s.black c then s1 else shade s1 y

/-- collector.c:638-726 `handle_gc_ptr`. -/
def handle (s : St) (o : Nat) : St :=
  if s.marked o then s
  else { s with marked := upd s.marked o true, pending := ptrs (s.heap o) ++ s.pending }

/-- What can happen while marking is in progress. -/
inductive Ev
  | scan (c : Nat)
  | serve (k : Nat)
  | load (c : Nat) (l : Loc)
  | drop (c k : Nat)
  | alloc (c n : Nat)
  | store (c : Nat) (l : Loc) (v : Option Nat)
  | move (c : Nat) (l : Loc) (v : Option Nat)
  | post (c : Nat)
  | commit (c : Nat)
  | sendBuf (c o i y : Nat)
  | sendTo (c d y : Nat)
  | spawn (c : Nat) (args : List Nat)
  | restart

/-- Coroutine `c` runs program code (it exists and is not inside a store). -/
def St.runs (s : St) (c : Nat) : Bool := decide (c < s.cos) && decide (s.flight c = .idle)

/-- Coroutine `c` can name the slot: the object is on its stack, or the slot is a global variable; the slot exists. -/
def St.canUse (s : St) (c : Nat) (l : Loc) : Bool :=
  (match l with
   | .heap o _ => decide (o ∈ s.stack c)
   | .glob _ => true) && (readLoc s l).isSome

/-- Coroutine `c` has the value on its stack (or it is nil). -/
def St.hasVal (s : St) (c : Nat) : Option Nat → Bool
  | none => true
  | some y => decide (y ∈ s.stack c)

/-- One step; `none` = not possible in this state. -/
def apply (s : St) : Ev → Option St
  -- collector.c:824-829: a coroutine that is not running is scanned and becomes black
  | .scan c =>
    if s.runs c then some { s with pending := s.stack c ++ s.pending, black := upd s.black c true } else none
  -- collector.c:752-757, 982-988: any pending address is popped and handled
  | .serve k =>
    match s.pending[k]? with
    | none => none
    | some o => some (handle { s with pending := s.pending.eraseIdx k } o)
  -- the program loads a pointer from a slot
  | .load c l =>
    if s.runs c && s.canUse c l then
      match readLoc s l with
      | some (some y) => some { s with stack := upd s.stack c (y :: s.stack c) }
      | _ => none
    else none
  -- the program forgets a pointer
  | .drop c k => if s.runs c then some { s with stack := upd s.stack c ((s.stack c).eraseIdx k) } else none
  -- allocator.c:1370-1382: a new object with nil fields is marked at once
  | .alloc c n =>
    if s.runs c then
      some { s with next := s.next + 1, heap := upd s.heap s.next (List.replicate n none),
                    marked := upd s.marked s.next true, stack := upd s.stack c (s.next :: s.stack c) }
    else none
  -- nutils.c:874-894
  | .store c l v =>
    if s.runs c && s.canUse c l && s.hasVal c v then
      some { barrier s c l v with flight := upd s.flight c (.barriered l v) }
    else none
  -- nutils.c:904
  | .move c l v =>
    if s.runs c && s.canUse c l && s.hasVal c v then
      some { writeLoc s l v with flight := upd s.flight c (.moved l v) }
    else none
  -- nutils.c:921: the barrier after the move, on the value now in the slot
  | .post c =>
    match s.flight c with
    | .moved l _ =>
      match readLoc s l with
      | none => none
      | some w => some { barrier s c l w with flight := upd s.flight c (.barriered l w) }
    | _ => none
  -- nutils.c:896
  | .commit c =>
    match s.flight c with
    | .barriered l v => some { writeLoc s l v with flight := upd s.flight c .idle }
    | _ => none
  -- rt_chan.c:250-252: a message with a pointer is copied into the channel's buffer without a barrier
  | .sendBuf c o i y =>
    if s.runs c && s.canUse c (.heap o i) && s.hasVal c (some y) then some (writeLoc s (.heap o i) (some y)) else none
  -- rt_chan.c:171-172: a message is copied to the stack of a waiting receiver
  | .sendTo c d y =>
    if s.runs c && decide (d < s.cos) && s.hasVal c (some y) then
      some { s with stack := upd s.stack d (y :: s.stack d) }
    else none
  -- processor.c:724-733 shades the function and the argument; processor.c:521-523 makes the coroutine black
  | .spawn c args =>
    if s.runs c && args.all (fun a => decide (a ∈ s.stack c)) then
      some { args.foldl shade s with cos := s.cos + 1, stack := upd s.stack s.cos args,
                                     black := upd s.black s.cos true, flight := upd s.flight s.cos .idle }
    else none
  -- collector.c:1049-1056 and 997-1037: the cycle is given up before the sweep (the barrier stays on, marks and
  -- work lists stay) and a new one starts, with the world stopped
  | .restart =>
    if (List.range s.cos).all (fun c => decide (s.flight c = .idle)) then
      some { s with black := fun _ => false, pending := ptrs s.globals ++ s.pending }
    else none

/-- A run of events. -/
def runs (s : St) : List Ev → Option St
  | [] => some s
  | e :: es => (apply s e).bind (runs · es)

/-- Marking is complete and the sweep may start (collector.c:1044-1065): all stacks are scanned, all work is done,
the world is stopped (no coroutine is inside a store). -/
def St.done (s : St) : Prop :=
  s.pending = [] ∧ ∀ c, c < s.cos → s.black c = true ∧ s.flight c = .idle

/-- The state in which marking starts (collector.c:1018-1037): nothing marked, the global variables pushed. -/
structure Start (s : St) : Prop where
  marked : ∀ o, s.marked o = false
  pending : s.pending = ptrs s.globals
  black : ∀ c, s.black c = false
  flight : ∀ c, s.flight c = .idle
  fresh : ∀ o, s.next ≤ o → s.heap o = []

end Nature.ConcGc
