import Verif.Chan.LockModel
/-!
Model of channels and `select`: runtime/rt_chan.c and std/builtin/chan.n.

Every operation runs under the lock of its channel (all locks of its channels for `select`) until it returns or has parked, so
operations are atomic steps and any interleaving of coroutines is a list of steps.  That the locks are used correctly is C23;
the one case where they are not (a blocking `select` with an ungrouped repeated channel) is the outcome `ub` here.
A blocked coroutine is resumed by a separate step after it has been made ready.
Messages are values: a parked coroutine's stack slot is written by nobody but its waker (`rt_msg_transmit`, rt_chan.c:148-180,
not modelled below that level).  Wait queues are lists (the linked queue itself is C25).  The record `linkco` is identified by its
coroutine and case index.
-/
namespace Nature.Chan
open Nature
variable {V : Type}

inductive Dir
  | send
  | recv
  deriving DecidableEq, Repr

/-- `linkco_t`: a waiting coroutine.  `msg` is what `data` points to for a sender; `bound` says `data` is not null for a receiver;
`arr` is the (ghost) time at which the operation was called. -/
structure Lnk (V : Type) where
  co : Nat
  sel : Bool
  idx : Nat
  msg : Option V
  bound : Bool
  arr : Nat

/-- `n_chan_t` without its wait queues (those are in the world, by direction). -/
structure Chan (V : Type) where
  buf : List V
  cap : Nat
  front : Nat
  rear : Nat
  closed : Bool
  successful : Bool

/-- A `select` case: `scase`, with its direction. -/
inductive Case (V : Type)
  | send (c : Nat) (v : V)
  | recv (c : Nat) (bound : Bool)

def Case.dir : Case V → Dir
  | .send _ _ => .send
  | .recv _ _ => .recv
def Case.ch : Case V → Nat
  | .send c _ => c
  | .recv c _ => c
def Case.msg : Case V → Option V
  | .send _ v => some v
  | .recv _ _ => none
def Case.bound : Case V → Bool
  | .send _ _ => true
  | .recv _ b => b

/-- What a blocked coroutine waits in. -/
inductive Wait (V : Type)
  | op (d : Dir) (c : Nat)
  | select (cases : List (Case V))

/-- What its waker left for it: `co->data` (by case index), `success`, and the message written to its stack slot. -/
structure Wake (V : Type) where
  idx : Nat
  ok : Bool
  msg : Option V

inductive CoSt (V : Type)
  | running
  | waiting (w : Wait V) (r : Option (Wake V))

structure World (V : Type) where
  chans : Nat → Chan V
  q : Dir → Nat → List (Lnk V)
  cos : Nat → CoSt V
  /-- `co->select_done` -/
  done : Nat → Bool
  clock : Nat

/-- What an operation returns to the program.  `picked i ok m`: `select` chose case `i`; `ok` is internal to the runtime. -/
inductive Ret (V : Type)
  | sendOk (c : Nat)
  | sendClosed (c : Nat)
  | sendFull (c : Nat)
  | recvOk (c : Nat) (v : V)
  | recvClosed (c : Nat)
  | recvNone (c : Nat)
  | closed (c : Nat)
  | closedAgain (c : Nat)
  | picked (i : Nat) (ok : Bool) (m : Option V)
  | default

/-- Events: a value accepted by a channel from a coroutine (which called at time `arr`), a value delivered to a coroutine,
an operation returning. -/
inductive Ev (V : Type)
  | sent (c co : Nat) (v : V) (arr : Nat)
  | rcvd (c co : Nat) (v : V)
  | ret (co : Nat) (r : Ret V)

/-- Function update. -/
def upd {α β : Type} [DecidableEq α] (f : α → β) (k : α) (v : β) : α → β := fun x => if x = k then v else f x
/-- Update of one wait queue. -/
def updq (q : Dir → Nat → List (Lnk V)) (d : Dir) (c : Nat) (l : List (Lnk V)) : Dir → Nat → List (Lnk V) :=
  fun d' c' => if d' = d ∧ c' = c then l else q d' c'

/-- rt_chan.c:12-14 -/
def bufEmpty (c : Chan V) : Bool := decide (c.front = c.rear)
/-- rt_chan.c:16-21 -/
def bufFull (c : Chan V) : Bool := if c.buf.length = 0 then true else decide ((c.rear + 1) % c.buf.length = c.front)
/-- rt_chan.c:26-34 -/
def bufPop (c : Chan V) : Res (V × Chan V) :=
  if bufEmpty c = true then .abort
  else
    match c.buf[c.front]? with
    | none => .throws
    | some x => .ok (x, { c with front := (c.front + 1) % c.cap })
/-- rt_chan.c:39-46 and the `memmove` of the caller -/
def bufPush (c : Chan V) (v : V) : Res (Chan V) :=
  if bufFull c = true then .abort
  else if c.rear < c.buf.length then .ok { c with buf := c.buf.set c.rear v, rear := (c.rear + 1) % c.buf.length }
  else .ub

/-- rt_chan.c:107-139 `waitq_pop`: the first waiter that is not a `select` already woken elsewhere; the skipped ones are dropped. -/
def popq (done : Nat → Bool) : List (Lnk V) → Option (Lnk V) × List (Lnk V) × (Nat → Bool)
  | [] => (none, [], done)
  | l :: q => if l.sel = true then (if done l.co = true then popq done q else (some l, q, upd done l.co true)) else (some l, q, done)

/-- `co_ready` with the result for the coroutine; a coroutine that is not waiting, or already woken, must not be woken. -/
def wake (cos : Nat → CoSt V) (co : Nat) (r : Wake V) : Res (Nat → CoSt V) :=
  match cos co with
  | .waiting w none => .ok (upd cos co (.waiting w (some r)))
  | _ => .abort

/-- rt_chan.c:208-226 `rt_send`: hand `v` to the waiting receiver `l`. -/
def rtSend (w : World V) (c : Nat) (l : Lnk V) (q : List (Lnk V)) (done : Nat → Bool) (co : Nat) (v : V) (r : Ret V) :
    Res (World V × List (Ev V)) :=
  (wake w.cos l.co ⟨l.idx, true, if l.bound = true then some v else none⟩).bind fun cos =>
  .ok ({ w with q := updq w.q .recv c q, cos := cos, done := done, clock := w.clock + 1 },
    [.sent c co v w.clock, .rcvd c l.co v, .ret co r])

/-- rt_chan.c:304-336 `rt_recv`: take from the waiting sender `l`; `bound` says the receiver's `msg_ptr` is not null. -/
def rtRecv (w : World V) (c : Nat) (l : Lnk V) (q : List (Lnk V)) (done : Nat → Bool) (co : Nat) (bound : Bool) (r : V → Ret V) :
    Res (World V × List (Ev V)) :=
  if bound = false then .abort
  else
    match l.msg with
    | none => .ub
    | some v =>
      (wake w.cos l.co ⟨l.idx, true, none⟩).bind fun cos =>
      if bufEmpty (w.chans c) = true then
        .ok ({ w with q := updq w.q .send c q, cos := cos, done := done, clock := w.clock + 1 },
          [.sent c l.co v l.arr, .rcvd c co v, .ret co (r v)])
      else if bufFull (w.chans c) = false then .abort
      else
        (bufPop (w.chans c)).bind fun p =>
        (bufPush p.2 v).bind fun ch =>
        .ok ({ w with chans := upd w.chans c ch, q := updq w.q .send c q, cos := cos, done := done, clock := w.clock + 1 },
          [.rcvd c co p.1, .sent c l.co v l.arr, .ret co (r p.1)])

/-- rt_chan.c:233-302 `rt_chan_send`, up to the return or to the parking. -/
def send (w : World V) (co c : Nat) (v : V) (try_ : Bool) : Res (World V × List (Ev V)) :=
  if (w.chans c).closed = true then .ok ({ w with clock := w.clock + 1 }, [.ret co (.sendClosed c)])
  else
    match popq w.done (w.q .recv c) with
    | (some l, q, d) => rtSend w c l q d co v (.sendOk c)
    | (none, q, d) =>
      let w := { w with q := updq w.q .recv c q, done := d }
      if bufFull (w.chans c) = false then
        (bufPush (w.chans c) v).bind fun ch =>
        .ok ({ w with chans := upd w.chans c ch, clock := w.clock + 1 }, [.sent c co v w.clock, .ret co (.sendOk c)])
      else if try_ = true then .ok ({ w with clock := w.clock + 1 }, [.ret co (.sendFull c)])
      else
        .ok ({ w with q := updq w.q .send c (w.q .send c ++ [⟨co, false, 0, some v, true, w.clock⟩]),
                      cos := upd w.cos co (.waiting (.op .send c) none), clock := w.clock + 1 }, [])

/-- rt_chan.c:343-404 `rt_chan_recv`, up to the return or to the parking. -/
def recv (w : World V) (co c : Nat) (try_ : Bool) : Res (World V × List (Ev V)) :=
  match popq w.done (w.q .send c) with
  | (some l, q, d) => rtRecv w c l q d co true (.recvOk c)
  | (none, q, d) =>
    let w := { w with q := updq w.q .send c q, done := d }
    if bufEmpty (w.chans c) = false then
      if (w.q .send c).isEmpty = false then .abort
      else
        (bufPop (w.chans c)).bind fun p =>
        .ok ({ w with chans := upd w.chans c p.2, clock := w.clock + 1 }, [.rcvd c co p.1, .ret co (.recvOk c p.1)])
    else if try_ = true then .ok ({ w with clock := w.clock + 1 }, [.ret co (.recvNone c)])
    else if (w.chans c).closed = true then .ok ({ w with clock := w.clock + 1 }, [.ret co (.recvClosed c)])
    else
      .ok ({ w with q := updq w.q .recv c (w.q .recv c ++ [⟨co, false, 0, none, true, w.clock⟩]),
                    cos := upd w.cos co (.waiting (.op .recv c) none), clock := w.clock + 1 }, [])

/-- rt_chan.c:418-427: one of the two loops of `rt_chan_close`: pop and wake with failure. -/
def closeLoop : Nat → List (Lnk V) → (Nat → Bool) → (Nat → CoSt V) → Res ((Nat → Bool) × (Nat → CoSt V))
  | 0, _, _, _ => .abort
  | f + 1, q, done, cos =>
    match popq done q with
    | (none, _, done) => .ok (done, cos)
    | (some l, q, done) => (wake cos l.co ⟨l.idx, false, none⟩).bind fun cos => closeLoop f q done cos

/-- rt_chan.c:406-429 `rt_chan_close`. -/
def close (w : World V) (co c : Nat) : Res (World V × List (Ev V)) :=
  if (w.chans c).closed = true then .ok ({ w with clock := w.clock + 1 }, [.ret co (.closedAgain c)])
  else
    (closeLoop ((w.q .recv c).length + 1) (w.q .recv c) w.done w.cos).bind fun p =>
    (closeLoop ((w.q .send c).length + 1) (w.q .send c) p.1 p.2).bind fun p =>
    .ok ({ chans := upd w.chans c { w.chans c with closed := true, successful := false },
           q := updq (updq w.q .recv c []) .send c [], cos := p.2, done := p.1, clock := w.clock + 1 }, [.ret co (.closed c)])

/-- rt_chan.c:562-603 and 695-735: pass 1 of `rt_chan_select` from case `i`, and the jumps out of it.  `inl`: no case was ready. -/
def pass1 (co : Nat) : World V → List (Case V) → Nat → Res (World V ⊕ (World V × List (Ev V)))
  | w, [], _ => .ok (.inl w)
  | w, .recv c bound :: cs, i =>
    match popq w.done (w.q .send c) with
    | (some l, q, d) => (rtRecv w c l q d co bound fun v => .picked i true (some v)).bind fun r => .ok (.inr r)
    | (none, q, d) =>
      let w := { w with q := updq w.q .send c q, done := d }
      if bufEmpty (w.chans c) = false then
        (bufPop (w.chans c)).bind fun p =>
        .ok (.inr ({ w with chans := upd w.chans c p.2, clock := w.clock + 1 },
          [.rcvd c co p.1, .ret co (.picked i true (if bound = true then some p.1 else none))]))
      else if (w.chans c).closed = true then
        .ok (.inr ({ w with chans := upd w.chans c { w.chans c with successful := false }, clock := w.clock + 1 },
          [.ret co (.picked i false none)]))
      else pass1 co w cs (i + 1)
  | w, .send c v :: cs, i =>
    if (w.chans c).closed = true then
      .ok (.inr ({ w with chans := upd w.chans c { w.chans c with successful := false }, clock := w.clock + 1 },
        [.ret co (.picked i false none)]))
    else
      match popq w.done (w.q .recv c) with
      | (some l, q, d) => (rtSend w c l q d co v (.picked i true none)).bind fun r => .ok (.inr r)
      | (none, q, d) =>
        let w := { w with q := updq w.q .recv c q, done := d }
        if bufFull (w.chans c) = false then
          (bufPush (w.chans c) v).bind fun ch =>
          .ok (.inr ({ w with chans := upd w.chans c ch, clock := w.clock + 1 }, [.sent c co v w.clock, .ret co (.picked i true none)]))
        else pass1 co w cs (i + 1)

/-- rt_chan.c:618-640: pass 2, enqueue on all channels. -/
def enqueue (co clock : Nat) : (Dir → Nat → List (Lnk V)) → List (Case V) → Nat → (Dir → Nat → List (Lnk V))
  | q, [], _ => q
  | q, cs :: rest, i =>
    enqueue co clock (updq q cs.dir cs.ch (q cs.dir cs.ch ++ [⟨co, true, i, cs.msg, cs.bound, clock⟩])) rest (i + 1)

/-- rt_chan.c:489-652 `rt_chan_select`, up to the return or to the parking. -/
def select (w : World V) (co : Nat) (cases : List (Case V)) (try_ : Bool) : Res (World V × List (Ev V)) :=
  (pass1 co w cases 0).bind fun r =>
  match r with
  | .inr r => .ok r
  | .inl w =>
    if try_ = true then .ok ({ w with clock := w.clock + 1 }, [.ret co .default])
    else if ¬ (parkSeq none (cases.map Case.ch)).Nodup then .ub
    else
      .ok ({ w with q := enqueue co w.clock w.q cases 0, cos := upd w.cos co (.waiting (.select cases) none), clock := w.clock + 1 }, [])

/-- rt_chan.c:662-683: pass 3, leave the queues of the cases that did not win. -/
def dequeue (co idx : Nat) : (Dir → Nat → List (Lnk V)) → List (Case V) → Nat → (Dir → Nat → List (Lnk V))
  | q, [], _ => q
  | q, cs :: rest, i =>
    dequeue co idx
      (if i = idx then q
       else updq q cs.dir cs.ch ((q cs.dir cs.ch).eraseP fun l => decide (l.co = co ∧ l.idx = i))) rest (i + 1)

/-- What a woken `rt_chan_send` / `rt_chan_recv` returns (rt_chan.c:281-301, 384-403). -/
def opRet (d : Dir) (c : Nat) (r : Wake V) : Res (Ret V) :=
  match d, r.ok, r.msg with
  | .send, true, _ => .ok (.sendOk c)
  | .send, false, _ => .ok (.sendClosed c)
  | .recv, true, some v => .ok (.recvOk c v)
  | .recv, true, none => .ub
  | .recv, false, _ => .ok (.recvClosed c)

/-- A woken coroutine runs on: rt_chan.c:281-301 (send), 384-403 (recv), 654-694 (select). -/
def resume (w : World V) (co : Nat) : Res (World V × List (Ev V)) :=
  match w.cos co with
  | .waiting (.op d c) (some r) =>
    (opRet d c r).bind fun ret => .ok ({ w with cos := upd w.cos co .running, clock := w.clock + 1 }, [.ret co ret])
  | .waiting (.select cases) (some r) =>
    match cases[r.idx]? with
    | none => .abort
    | some cs =>
      let w := { w with q := dequeue co r.idx w.q cases 0, done := upd w.done co false, cos := upd w.cos co .running,
                        clock := w.clock + 1 }
      if cs.dir = .send ∧ r.ok = false then
        .ok ({ w with chans := upd w.chans cs.ch { w.chans cs.ch with successful := false } }, [.ret co (.picked r.idx false none)])
      else .ok (w, [.ret co (.picked r.idx r.ok r.msg)])
  | _ => .ok (w, [])

/-- The operations a coroutine can perform; `resume` is the scheduler running a coroutine that was made ready. -/
inductive Op (V : Type)
  | send (co c : Nat) (v : V) (try_ : Bool)
  | recv (co c : Nat) (try_ : Bool)
  | close (co c : Nat)
  | select (co : Nat) (cases : List (Case V)) (try_ : Bool)
  | resume (co : Nat)

/-- Is the coroutine running? -/
def isRunning (w : World V) (co : Nat) : Bool :=
  match w.cos co with
  | .running => true
  | _ => false

/-- One step.  Only a running coroutine performs an operation. -/
def step (w : World V) : Op V → Res (World V × List (Ev V))
  | .send co c v t => if isRunning w co = true then send w co c v t else .ok (w, [])
  | .recv co c t => if isRunning w co = true then recv w co c t else .ok (w, [])
  | .close co c => if isRunning w co = true then close w co c else .ok (w, [])
  | .select co cs t => if isRunning w co = true then select w co cs t else .ok (w, [])
  | .resume co => resume w co

/-- Any history. -/
def run (w : World V) : List (Op V) → Res (World V × List (Ev V))
  | [] => .ok (w, [])
  | op :: ops => (step w op).bind fun p => (run p.1 ops).bind fun r => .ok (r.1, p.2 ++ r.2)

/-- std/builtin/chan.n:4-14 `chan<T>.new` and rt_chan.c:188-206 `rt_chan_new`: the ring has one more slot than the declared capacity;
`rti_vec_new` (vec.c) gives capacity 8 when the length is 0.  Memory is zeroed: slots hold `dflt`, `successful` is false. -/
def newChan (dflt : V) (declared : Nat) : Chan V :=
  let len := if declared > 0 then declared + 1 else 0
  ⟨List.replicate len dflt, if len > 0 then len else 8, 0, 0, false, false⟩

/-- Channels with the declared capacities, all coroutines running. -/
def init (dflt : V) (declared : Nat → Nat) : World V :=
  ⟨fun c => newChan dflt (declared c), fun _ _ => [], fun _ => .running, fun _ => false, 0⟩

end Nature.Chan
