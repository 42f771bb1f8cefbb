/-
Model of the storage for mark and allocation bits: /repo/runtime/gcbits.c (and gcbits.h).

Chunks ("arenas") of 65536 bytes are named by numbers, in the order in which they were obtained from the
operating system (new mappings do not overlap mapped ones).  Any number of threads run `gcbits_new`; every access
to shared memory is one step, so all interleavings are covered.  The statements that `gcbits_new` executes
after a successful attempt touch only data that the lock protects or that no other thread can reach, and are
part of the step that succeeds.  `free_index` is a natural number: a failed attempt adds at most 65520 to
it and only after having seen it below that bound, so it stays below 65520 * (number of threads + 1) and does
not wrap.  The epoch change is called by the collector with the world stopped (collector.c:1075-1082), so it is
enabled when no thread is inside `gcbits_new`.
-/
namespace Nature.GcBits

/-- runtime/gcbits.h:8-10 `GCBITS_CHUNK_PAYLOAD_BYTES`. -/
abbrev payload : Nat := 65520

/-- runtime/gcbits.c:21-22: bytes of a block for `n` bits. -/
def bytesNeeded (n : Nat) : Nat := (n + 63) / 64 * 8

/-- Which of the four calls of `gcbits_try_alloc` in `gcbits_new` (runtime/gcbits.c:24, 33, 44, 56) a thread is
making; `f` is `fresh`. -/
inductive Phase
  | first
  | locked
  | again (f : Nat)
  | onFresh (f : Nat)

/-- Where a thread is: outside; about to read the arena pointer that it passes to `gcbits_try_alloc`; before the
load of `free_index`; before the fetch-and-add; waiting for the lock; at the start of `gcbits_arena_new`; about
to map memory; waiting to take the lock again; stopped by the failed assertion. -/
inductive PC
  | idle
  | read (ph : Phase) (n : Nat)
  | load (ph : Phase) (n : Nat) (a : Option Nat)
  | add (ph : Phase) (n : Nat) (a : Nat)
  | lock (n : Nat)
  | arenaNew (n : Nat)
  | map (n : Nat)
  | relock (n : Nat) (f : Nat)
  | aborted (n : Nat)

/-- A block handed out for a request of `bits` bits: `arena->bits[start .. start + len)`, in which epoch. -/
structure Block where
  bits : Nat
  arena : Nat
  start : Nat
  len : Nat
  epoch : Nat
  deriving DecidableEq

/-- runtime/gcbits.h:19-37: the four lists, the lock, and per arena the free index and the bytes `bits`;
`maps` is the number of arenas mapped so far; `epoch` and `blocks` (newest first) are history, not read by the
program. -/
structure St where
  fi : Nat → Nat
  mem : Nat → Nat → Nat
  next : List Nat
  cur : List Nat
  prev : List Nat
  free : List Nat
  lock : Option Nat
  pc : Nat → PC
  maps : Nat
  epoch : Nat
  blocks : List Block

def upd {α : Type} (f : Nat → α) (k : Nat) (v : α) : Nat → α := fun j => if j = k then v else f j

def St.setPc (s : St) (t : Nat) (p : PC) : St := { s with pc := upd s.pc t p }

/-- runtime/gcbits.c:10-17 `gcbits_areas_init`. -/
def init : St where
  fi _ := 0
  mem _ _ := 0
  next := []
  cur := []
  prev := []
  free := []
  lock := none
  pc _ := PC.idle
  maps := 0
  epoch := 0
  blocks := []

/-- The attempt failed: runtime/gcbits.c:30, 39-41, 54-56, 57 (the assertion). -/
def fail (s : St) (t : Nat) (ph : Phase) (n : Nat) : St :=
  match ph with
  | .first => s.setPc t (.lock n)
  | .locked => s.setPc t (.arenaNew n)
  | .again f => s.setPc t (.read (.onFresh f) n)
  | .onFresh _ => s.setPc t (.aborted n)

/-- The attempt succeeded: runtime/gcbits.c:25-27, 34-37, 45-52, 59-66. -/
def succeed (s : St) (t : Nat) (ph : Phase) (b : Block) : St :=
  match ph with
  | .first => { s with blocks := b :: s.blocks, pc := upd s.pc t PC.idle }
  | .locked => { s with blocks := b :: s.blocks, pc := upd s.pc t PC.idle, lock := none }
  | .again f => { s with blocks := b :: s.blocks, pc := upd s.pc t PC.idle, lock := none, free := f :: s.free }
  | .onFresh f => { s with blocks := b :: s.blocks, pc := upd s.pc t PC.idle, lock := none, next := f :: s.next }

/-- One atomic step of thread `t`; `none` when it is outside `gcbits_new`, waiting for the lock, or stopped. -/
def tstep (s : St) (t : Nat) : Option St :=
  match s.pc t with
  | .idle => none
  | .aborted _ => none
  -- gcbits.c:24, 33, 44 read `next_list`; gcbits.c:56 passes `fresh`
  | .read ph n =>
    match ph with
    | .onFresh f => some (s.setPc t (.load ph n (some f)))
    | _ => some (s.setPc t (.load ph n s.next.head?))
  -- gcbits.c:71-79
  | .load ph n a =>
    match a with
    | none => some (fail s t ph n)
    | some a =>
      if s.fi a + bytesNeeded n > payload then some (fail s t ph n) else some (s.setPc t (.add ph n a))
  -- gcbits.c:83-88
  | .add ph n a =>
    let start := s.fi a
    let s1 : St := { s with fi := upd s.fi a (start + bytesNeeded n) }
    if start + bytesNeeded n > payload then some (fail s1 t ph n)
    else some (succeed s1 t ph ⟨n, a, start, bytesNeeded n, s.epoch⟩)
  -- gcbits.c:30
  | .lock n => if s.lock = none then some { s with lock := some t, pc := upd s.pc t (.read .locked n) } else none
  -- gcbits.c:94-96, 103-109, 112-119
  | .arenaNew n =>
    match s.free with
    | [] => some { s with lock := none, pc := upd s.pc t (.map n) }
    | f :: rest =>
      some { s with free := rest, fi := upd s.fi f 0, mem := upd s.mem f (fun _ => 0),
                    pc := upd s.pc t (.read (.again f) n) }
  -- gcbits.c:97-100, 112-119
  | .map n =>
    some { s with maps := s.maps + 1, fi := upd s.fi s.maps 0, mem := upd s.mem s.maps (fun _ => 0),
                  pc := upd s.pc t (.relock n s.maps) }
  -- gcbits.c:102
  | .relock n f =>
    if s.lock = none then some { s with lock := some t, pc := upd s.pc t (.read (.again f) n) } else none

/-- runtime/gcbits.c:125-150 `gcbits_arenas_epoch`: `previous_list` goes in front of `free_list`. -/
def epochStep (s : St) : St :=
  { s with free := s.prev ++ s.free, prev := s.cur, cur := s.next, next := [], epoch := s.epoch + 1 }

/-- A step of the system: a thread calls `gcbits_new(n)`; a thread inside it makes one atomic step; the
collector changes the epoch; the owner of a block not older than two epochs writes to it. -/
inductive Step : St → St → Prop
  | call (s : St) (t n : Nat) (h : s.pc t = PC.idle) : Step s (s.setPc t (.read .first n))
  | run (s s' : St) (t : Nat) (h : tstep s t = some s') : Step s s'
  | epoch (s : St) (h : ∀ t, s.pc t = PC.idle) : Step s (epochStep s)
  | write (s : St) (b : Block) (i v : Nat) (hb : b ∈ s.blocks) (ha : s.epoch ≤ b.epoch + 2) (hi : i < b.len) :
      Step s { s with mem := upd s.mem b.arena (upd (s.mem b.arena) (b.start + i) v) }

/-- The states the system can get into. -/
inductive Reachable : St → Prop
  | init : Reachable init
  | step (s s' : St) (h : Reachable s) (hs : Step s s') : Reachable s'

end Nature.GcBits
