/-!
# `runtime/rt_mutex.c`: the coroutine mutex, one step per atomic access

Any number of coroutines run `rt_mutex_lock`, `rt_mutex_try_lock` and
`rt_mutex_unlock` on one mutex.  Every access to a shared word (`state`,
`sema`, `waiter_count`), to the waiter list, to its `locker` and to another
coroutine's `ticket` is a separate step; the scheduler may interleave the steps
of different coroutines in any order.

Simplifications (all documented at the definitions):
* `atomic_add_int64` and `can_semacquire` are compare-and-swap retry loops; each
  is one atomic step here (its linearization point).
* the 64-bit counters are unbounded integers.
* the spin decision `rt_can_spin` (193-204) and the clock comparison that makes
  a waiter "starving" (97) are free choices of the environment.
* the run-queue side of a wake-up (317-327) is "the parked coroutine may go on".
* memory is sequentially consistent (the words are `_Atomic`; the two plain
  fields `waiters.count` and `ticket` are read at the point the code reads them).
-/
namespace Nature.Mutex

/-- `old & MUTEX_LOCKED` (rt_mutex.h:10).  Floor division and modulus agree with
two's-complement bit tests and the arithmetic shift, also for negative words. -/
def isL (x : Int) : Bool := x % 2 = 1
/-- `old & MUTEX_WOKEN` (rt_mutex.h:11) -/
def isW (x : Int) : Bool := x / 2 % 2 = 1
/-- `old & MUTEX_STARVING` (rt_mutex.h:12) -/
def isS (x : Int) : Bool := x / 4 % 2 = 1
/-- `old >> MUTEX_WAITER_SHIFT` (rt_mutex.h:13) -/
def cnt (x : Int) : Int := x / 8
/-- `new |= MUTEX_LOCKED` -/
def setL (x : Int) : Int := if isL x then x else x + 1
/-- `new |= MUTEX_WOKEN` -/
def setW (x : Int) : Int := if isW x then x else x + 2
/-- `new |= MUTEX_STARVING` -/
def setS (x : Int) : Int := if isS x then x else x + 4
/-- `new & ~MUTEX_WOKEN` -/
def clrW (x : Int) : Int := if isW x then x - 2 else x

/-- The word `rt_mutex_lock` tries to install (rt_mutex.c:53-74), before the
`awoke` adjustment. -/
def lockNew (old : Int) (starving : Bool) : Int :=
  let n1 := if isS old then old else setL old
  let n2 := if isL old || isS old then n1 + 8 else n1
  if starving && isL old then setS n2 else n2

/-- Program counter of one coroutine, with the C locals that are live there. -/
inductive PC where
  /-- not inside a mutex call and not holding the mutex -/
  | idle
  /-- rt_mutex.c:27-28, about to try the fast path -/
  | lockFast
  /-- rt_mutex.c:36/49/128, about to `old = atomic_load(&m->state)`; `ws` is
  `wait_start_time != 0` -/
  | reload (awoke starving ws : Bool)
  /-- rt_mutex.c:37, loop head with a loaded `old` -/
  | loop (old : Int) (awoke starving ws : Bool)
  /-- rt_mutex.c:222, entering `rt_mutex_waiter_acquire`; `hd` is `to_head` -/
  | wAcq (starving hd : Bool)
  /-- 231 -/
  | wLock (starving hd : Bool)
  /-- 233 -/
  | wInc (starving hd : Bool)
  /-- 234 -/
  | wSem (starving hd : Bool)
  /-- 235 -/
  | wDec (starving : Bool)
  /-- 237-238 -/
  | wChk (starving : Bool)
  /-- 240 -/
  | wUnl (starving : Bool)
  /-- 245-249 -/
  | wPush (starving hd : Bool)
  /-- 256: about to yield; `mutex_yield_commit` (212-215) drops the locker -/
  | wPark (starving hd : Bool)
  /-- 256: yielded, waiting to be made runnable -/
  | parked (starving hd : Bool)
  /-- 259: running again -/
  | wRetry (starving hd : Bool)
  /-- 97-100: returned from `rt_mutex_waiter_acquire` -/
  | tok (starving : Bool)
  /-- 111-124: woken while the mutex is in starvation mode -/
  | hand (old : Int) (starving : Bool)
  /-- the call that acquires has returned: this coroutine holds the mutex -/
  | crit
  /-- 134 -/
  | tryLoad
  /-- 135-139 -/
  | tryCas (old : Int)
  /-- 148-161, after the subtraction in `rt_mutex_unlock` -/
  | uChk (new : Int)
  /-- 165-174 -/
  | uLoop (old : Int)
  /-- 180 -/
  | uReload
  /-- 267 -/
  | rel
  /-- 269 -/
  | rLoad
  /-- 270: the assertion evaluated without the locker -/
  | rAss
  /-- 276 -/
  | rLock
  /-- 279 -/
  | rLoad2
  /-- 280 -/
  | rAss2
  /-- 283 -/
  | rUnl0
  /-- 297-298 -/
  | rPop
  /-- 300 -/
  | rDec (w : Nat)
  /-- 306 -/
  | rUnl (w : Nat)
  /-- 311 -/
  | rSem (w : Nat)
  /-- 313 -/
  | rTick (w : Nat)
  /-- 317-322 -/
  | rWake (w : Nat)
  deriving DecidableEq, Repr

/-- A coroutine: where it is, and its `ticket` field (runtime/rt_mutex.c:227,
259, 313). -/
structure Th where
  pc : PC
  ticket : Bool
  deriving DecidableEq, Repr

/-- What a user sees. -/
inductive Ev where
  /-- `lock` returned, or `try_lock` returned `true`, in coroutine `i` -/
  | acquired (i : Nat)
  /-- coroutine `i` called `unlock` -/
  | unlock (i : Nat)
  /-- `try_lock` returned `false` in coroutine `i` -/
  | tryFailed (i : Nat)
  deriving DecidableEq, Repr

/-- `rt_mutex_t` (rt_mutex.h:19-24) and the coroutines using it. -/
structure St where
  state : Int
  sema : Int
  wc : Int
  /-- `waiters`, head first; `waiters.count` is its length -/
  q : List Nat
  /-- `waiters.locker` is held -/
  lk : Bool
  ths : List Th
  /-- newest event last -/
  log : List Ev
  deriving DecidableEq, Repr

/-- A zeroed `rt_mutex_t` and `n` coroutines outside it. -/
def init (n : Nat) : St :=
  { state := 0, sema := 0, wc := 0, q := [], lk := false,
    ths := List.replicate n ⟨.idle, false⟩, log := [] }

/-- The internal consistency assertions of rt_mutex.c. -/
inductive Fault where
  /-- 77 -/
  | awokeState
  /-- 111-113 -/
  | handoffState
  /-- 156-157 -/
  | unlockUnlocked
  /-- 237 -/
  | waiterCount
  /-- 270 -/
  | unlockedCount
  /-- 280 -/
  | lockedCount
  /-- 298 -/
  | noWaiter
  /-- not an assertion of the code: 317-322 would put a coroutine that is not
  parked on a run queue (or touch one that does not exist) -/
  | badWake
  deriving DecidableEq, Repr

inductive Out where
  | next (s : St)
  /-- cannot run now (parked, or the locker is taken) -/
  | blocked
  /-- an assertion failed: the process aborts -/
  | fail (f : Fault)
  deriving DecidableEq, Repr

/-- The environment's choices at a step. -/
structure Choice where
  /-- idle: call `try_lock` rather than `lock` -/
  try_ : Bool
  /-- loop head: `rt_can_spin(iter)` -/
  spin : Bool
  /-- line 97: the wait took longer than the threshold -/
  slow : Bool
  deriving DecidableEq, Repr

/-- Move coroutine `i` to `pc`. -/
def St.go (s : St) (i : Nat) (th : Th) (pc : PC) : St :=
  { s with ths := s.ths.set i { th with pc := pc } }

/-- Append an event. -/
def St.ev (s : St) (e : Ev) : St := { s with log := s.log ++ [e] }

/-- One step of coroutine `i` whose record is `th`. -/
def stepTh (s : St) (i : Nat) (th : Th) (c : Choice) : Out :=
  match th.pc with
  | .idle => .next (s.go i th (if c.try_ then .tryLoad else .lockFast))
  -- 27-30
  | .lockFast =>
    if s.state = 0 then .next (({ s with state := 1 } : St).go i th .crit |>.ev (.acquired i))
    else .next (s.go i th (.reload false false false))
  -- 36, 49, 128
  | .reload awoke starving ws => .next (s.go i th (.loop s.state awoke starving ws))
  -- 39-51
  | .loop old awoke starving ws =>
    if isL old && !isS old && c.spin then
      if !awoke && !isW old && decide (cnt old ≠ 0) && decide (s.state = old) then
        .next (({ s with state := setW old } : St).go i th (.reload true starving ws))
      else .next (s.go i th (.reload awoke starving ws))
    -- 76-77
    else if awoke && !isW (lockNew old starving) then .fail .awokeState
    -- 79-94
    else if s.state = old then
      if isL old || isS old then
        .next (({ s with state := if awoke then clrW (lockNew old starving)
                                  else lockNew old starving } : St).go i th (.wAcq starving ws))
      else
        .next ((({ s with state := if awoke then clrW (lockNew old starving)
                                   else lockNew old starving } : St).go i th .crit).ev (.acquired i))
    else .next (s.go i th (.reload awoke starving ws))
  -- 222-227
  | .wAcq starving hd =>
    if s.sema = 0 then
      .next { s with ths := s.ths.set i ⟨.wLock starving hd, false⟩ }
    else .next (({ s with sema := s.sema - 1 } : St).go i th (.tok starving))
  -- 231
  | .wLock starving hd =>
    if s.lk then .blocked
    else .next (({ s with lk := true } : St).go i th (.wInc starving hd))
  -- 233
  | .wInc starving hd => .next (({ s with wc := s.wc + 1 } : St).go i th (.wSem starving hd))
  -- 234
  | .wSem starving hd =>
    if s.sema = 0 then .next (s.go i th (.wPush starving hd))
    else .next (({ s with sema := s.sema - 1 } : St).go i th (.wDec starving))
  -- 235
  | .wDec starving => .next (({ s with wc := s.wc - 1 } : St).go i th (.wChk starving))
  -- 237-238
  | .wChk starving =>
    if s.wc = s.q.length then .next (s.go i th (.wUnl starving)) else .fail .waiterCount
  -- 240-241
  | .wUnl starving => .next (({ s with lk := false } : St).go i th (.tok starving))
  -- 245-249
  | .wPush starving hd =>
    .next (({ s with q := if hd then i :: s.q else s.q ++ [i] } : St).go i th (.wPark starving hd))
  -- 256, 212-215
  | .wPark starving hd => .next (({ s with lk := false } : St).go i th (.parked starving hd))
  | .parked _ _ => .blocked
  -- 259
  | .wRetry starving hd =>
    if th.ticket then .next (s.go i th (.tok starving))
    else if s.sema = 0 then .next (s.go i th (.wLock starving hd))
    else .next (({ s with sema := s.sema - 1 } : St).go i th (.tok starving))
  -- 97-105
  | .tok starving =>
    if isS s.state then .next (s.go i th (.hand s.state (starving || c.slow)))
    else .next (s.go i th (.loop s.state true (starving || c.slow) true))
  -- 111-125
  | .hand old starving =>
    if isL old || isW old || decide (cnt old = 0) then .fail .handoffState
    else
      .next ((({ s with state := s.state + (if !starving || decide (cnt old = 1) then 1 - 8 - 4
                                            else 1 - 8) } : St).go i th .crit).ev (.acquired i))
  -- 147: the holder calls unlock
  | .crit =>
    .next ((({ s with state := s.state - 1 } : St).go i th (.uChk (s.state - 1))).ev (.unlock i))
  -- 134
  | .tryLoad => .next (s.go i th (.tryCas s.state))
  -- 135-143
  | .tryCas old =>
    if isL old || isS old then .next ((s.go i th .idle).ev (.tryFailed i))
    else if s.state = old then
      .next ((({ s with state := setL old } : St).go i th .crit).ev (.acquired i))
    else .next ((s.go i th .idle).ev (.tryFailed i))
  -- 148-190
  | .uChk new =>
    if new = 0 then .next (s.go i th .idle)
    else if !isL (new + 1) then .fail .unlockUnlocked
    else if isS new then .next (s.go i th .rel)
    else .next (s.go i th (.uLoop new))
  -- 167-177
  | .uLoop old =>
    if decide (cnt old = 0) || isL old || isW old || isS old then .next (s.go i th .idle)
    else if s.state = old then
      .next (({ s with state := setW (old - 8) } : St).go i th .rel)
    else .next (s.go i th .uReload)
  -- 180
  | .uReload => .next (s.go i th (.uLoop s.state))
  -- 267
  | .rel => .next (({ s with sema := s.sema + 1 } : St).go i th .rLoad)
  -- 269
  | .rLoad => .next (s.go i th (if s.wc = 0 then .rAss else .rLock))
  -- 270-272
  | .rAss => if s.q.length = 0 then .next (s.go i th .idle) else .fail .unlockedCount
  -- 276
  | .rLock =>
    if s.lk then .blocked else .next (({ s with lk := true } : St).go i th .rLoad2)
  -- 279
  | .rLoad2 => .next (s.go i th (if s.wc = 0 then .rAss2 else .rPop))
  -- 280
  | .rAss2 => if s.q.length = 0 then .next (s.go i th .rUnl0) else .fail .lockedCount
  -- 283-284
  | .rUnl0 => .next (({ s with lk := false } : St).go i th .idle)
  -- 297-298
  | .rPop =>
    match s.q with
    | [] => .fail .noWaiter
    | w :: q => .next (({ s with q := q } : St).go i th (.rDec w))
  -- 300
  | .rDec w => .next (({ s with wc := s.wc - 1 } : St).go i th (.rUnl w))
  -- 306
  | .rUnl w => .next (({ s with lk := false } : St).go i th (.rSem w))
  -- 311
  | .rSem w =>
    if s.sema = 0 then .next (s.go i th (.rWake w))
    else .next (({ s with sema := s.sema - 1 } : St).go i th (.rTick w))
  -- 313
  | .rTick w =>
    match s.ths[w]? with
    | none => .fail .badWake
    | some t =>
      .next (({ s with ths := s.ths.set w { t with ticket := true } } : St).go i th (.rWake w))
  -- 317-328
  | .rWake w =>
    match s.ths[w]? with
    | none => .fail .badWake
    | some t =>
      match t.pc with
      | .parked starving hd =>
        .next (({ s with ths := s.ths.set w { t with pc := .wRetry starving hd } } : St).go i th .idle)
      | _ => .fail .badWake

/-- One step of coroutine `i`. -/
def step (s : St) (i : Nat) (c : Choice) : Out :=
  match s.ths[i]? with
  | none => .blocked
  | some th => stepTh s i th c

/-- States reachable with `n` coroutines under any schedule. -/
inductive Reach (n : Nat) : St → Prop
  | init : Reach n (init n)
  | step {s s' : St} {i : Nat} {c : Choice} : Reach n s → step s i c = .next s' → Reach n s'

/-- Run a schedule: which coroutine steps, with which choice. -/
def run (s : St) : List (Nat × Choice) → Out
  | [] => .next s
  | (i, c) :: r =>
    match step s i c with
    | .next s' => run s' r
    | o => o

end Nature.Mutex
