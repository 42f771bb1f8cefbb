/-
Model of the wait queues of the runtime: the linkco cells and their caches (/repo/runtime/linkco.c), the waiter lists
of mutexes (/repo/runtime/linkco.h) and the wait queues of channels (/repo/runtime/rt_chan.c:48-139).

One state holds all processors, all waiter lists and all channel queues, since cells move between them.  Every
function is one atomic step: the list functions run under the list's or the channel's lock, a processor's cache is
touched by its own thread only, the global cache is under `global_linkco_locker`.  `rti_write_barrier_ptr` is the store
it performs; its marking side is the subject of Verif/ConcGc.  Cells are allocated by the collector and never freed
here.  0 is NULL; the result `none` means a failed assertion.  `data`, `chan`, `waitlink` and `success` are left out: no
queue operation reads them.
-/
namespace Nature.Linkco

/-- runtime/runtime.h:360-370 `linkco_t`. -/
structure Lc where
  co : Nat
  prev : Nat
  next : Nat
  isSelect : Bool

/-- runtime/linkco.h:15-20 `rt_linkco_list_t`; runtime/runtime.h `waitq_t` is the same without `count`. -/
structure LQ where
  head : Nat
  rear : Nat
  count : Nat
deriving DecidableEq

/-- The queues: `list k` is the waiter list of mutex `k`, `wait k` one of the channel queues. -/
inductive QId
  | list (k : Nat)
  | wait (k : Nat)
deriving DecidableEq

structure St where
  mem : Nat → Lc
  /-- `p->linkco_cache[0 .. linkco_count - 1]`, last entry first -/
  cache : Nat → List Nat
  /-- `global_linkco_cache` -/
  global : Nat
  q : QId → LQ
  /-- `co->select_done` -/
  done : Nat → Bool
  /-- the cells `rti_gc_malloc` has returned -/
  live : Nat → Bool

def upd {α} [DecidableEq α] {β} (f : α → β) (a : α) (b : β) : α → β := fun x => if x = a then b else f x

/-- runtime/runtime.h:78 `P_LINKCO_CACHE_MAX`. -/
def cacheMax : Nat := 128

def setNext (s : St) (a v : Nat) : St := { s with mem := upd s.mem a { s.mem a with next := v } }
def setPrev (s : St) (a v : Nat) : St := { s with mem := upd s.mem a { s.mem a with prev := v } }
def setCo (s : St) (a v : Nat) : St := { s with mem := upd s.mem a { s.mem a with co := v } }
def setSelect (s : St) (a : Nat) (b : Bool) : St := { s with mem := upd s.mem a { s.mem a with isSelect := b } }
def setQ (s : St) (i : QId) (x : LQ) : St := { s with q := upd s.q i x }
def setCache (s : St) (p : Nat) (l : List Nat) : St := { s with cache := upd s.cache p l }

/-- Zeroed queues (`default null`), empty caches. -/
def init : St := ⟨fun _ => ⟨0, 0, 0, false⟩, fun _ => [], 0, fun _ => ⟨0, 0, 0⟩, fun _ => false, fun _ => false⟩

/-- runtime/linkco.c:11-21: take cells from the global cache while it has some and the local one is less than half
full; the fuel is `P_LINKCO_CACHE_MAX / 2` less the local count. -/
def borrow (p : Nat) : Nat → St → St
  | 0, s => s
  | n + 1, s =>
    if s.global = 0 then s
    else
      let a := s.global
      let s1 := { s with global := (s.mem a).next }
      let s2 := setNext s1 a 0
      borrow p n (setCache s2 p (a :: s2.cache p))

/-- runtime/linkco.c:27-32: `rti_gc_malloc` of a cell, zeroed; `a` is its address. -/
def fresh (s : St) (p a : Nat) : St :=
  setCache { s with mem := upd s.mem a ⟨0, 0, 0, false⟩, live := upd s.live a true } p (a :: s.cache p)

/-- runtime/linkco.c:4-42 `rti_acquire_linkco` on processor `p`; `a` is the address the collector would return. -/
def acquire (s : St) (p a : Nat) : Option (Nat × St) :=
  let s1 := if s.cache p = [] then
      let s0 := borrow p (cacheMax / 2) s
      if s0.cache p = [] then fresh s0 p a else s0
    else s
  match s1.cache p with
  | [] => none
  | b :: bs =>
    if (s1.mem b).prev ≠ 0 ∨ (s1.mem b).next ≠ 0 then none
    else some (b, setCache s1 p bs)

/-- runtime/linkco.c:57-69: unload cells from the local cache, chaining them; the fuel is the number of rounds. -/
def give (p : Nat) : Nat → Nat → Nat → St → Option (Nat × Nat × St)
  | 0, first, last, s => some (first, last, s)
  | n + 1, first, last, s =>
    match s.cache p with
    | [] => none
    | t :: ts =>
      let s1 := setCache s p ts
      if first = 0 then give p n t t s1 else give p n first t (setNext s1 last t)

/-- runtime/linkco.c:44-81 `rti_release_linkco` on processor `p`. -/
def release (s : St) (p a : Nat) : Option St :=
  if (s.mem a).prev ≠ 0 ∨ (s.mem a).next ≠ 0 then none
  else
    let s1 := setCo s a 0
    if (s1.cache p).length = cacheMax then
      (give p (cacheMax - cacheMax / 2) 0 0 s1).map fun (first, last, s2) =>
        let s3 := setNext s2 last s2.global
        let s4 := { s3 with global := first }
        setCache s4 p (a :: s4.cache p)
    else some (setCache s1 p (a :: s1.cache p))

/-- runtime/linkco.h:23-53 `linkco_list_push`. -/
def listPush (s : St) (p k v a : Nat) : Option St :=
  (acquire s p a).bind fun (b, s1) =>
    if (s1.mem b).next ≠ 0 ∨ (s1.mem b).prev ≠ 0 then none
    else
      let s2 := setCo s1 b v
      let l := s2.q (.list k)
      if l.head = 0 then
        if l.rear ≠ 0 then none else some (setQ s2 (.list k) ⟨b, b, l.count + 1⟩)
      else if l.rear = 0 then none
      else some (setQ (setPrev (setNext s2 l.rear b) b l.rear) (.list k) ⟨l.head, b, l.count + 1⟩)

/-- runtime/linkco.h:97-117 `linkco_list_push_head`. -/
def listPushHead (s : St) (p k v a : Nat) : Option St :=
  if v = 0 then none
  else (acquire s p a).bind fun (b, s1) =>
    let s2 := setCo s1 b v
    let l := s2.q (.list k)
    if l.head = 0 then
      if l.rear ≠ 0 then none else some (setQ s2 (.list k) ⟨b, b, l.count + 1⟩)
    else some (setQ (setPrev (setNext s2 b l.head) l.head b) (.list k) ⟨b, l.rear, l.count + 1⟩)

/-- runtime/linkco.h:56-87 `linkco_list_pop`. -/
def listPop (s : St) (p k : Nat) : Option (Nat × St) :=
  let l := s.q (.list k)
  if l.head = 0 then
    if l.rear ≠ 0 then none else some (0, s)
  else if (s.mem l.head).co = 0 then none
  else
    let b := l.head
    let h := (s.mem b).next
    let r : Option St :=
      if h = 0 then
        if l.count ≠ 1 then none else some (setQ s (.list k) ⟨0, 0, l.count - 1⟩)
      else some (setQ (setPrev s h 0) (.list k) ⟨h, l.rear, l.count - 1⟩)
    r.bind fun s1 =>
      let v := (s1.mem b).co
      (release (setNext s1 b 0) p b).map fun s2 => (v, s2)

/-- runtime/linkco.h:140-161 `linkco_list_remove`. -/
def listRemove (s : St) (p k b : Nat) : Option St :=
  let l := s.q (.list k)
  let n := s.mem b
  let r1 : Option St :=
    if n.prev = 0 then
      if l.head ≠ b then none else some (setQ s (.list k) { l with head := n.next })
    else some (setNext s n.prev n.next)
  r1.bind fun s1 =>
    let l1 := s1.q (.list k)
    let r2 : Option St :=
      if n.next = 0 then
        if l1.rear ≠ b then none else some (setQ s1 (.list k) { l1 with rear := n.prev })
      else some (setPrev s1 n.next n.prev)
    r2.bind fun s2 =>
      let l2 := s2.q (.list k)
      release (setQ s2 (.list k) { l2 with count := l2.count - 1 }) p b

/-- runtime/rt_chan.c:54-72 `waitq_push`, after the caller has filled in `co` and `is_select` (rt_chan.c:275-281,
619-631). -/
def waitPush (s : St) (k b v : Nat) (sel : Bool) : Option St :=
  let s := setSelect (setCo s b v) b sel
  if (s.mem b).next ≠ 0 ∨ (s.mem b).prev ≠ 0 then none
  else
    let l := s.q (.wait k)
    if l.head = 0 then
      if l.rear ≠ 0 then none else some (setQ s (.wait k) ⟨b, b, l.count⟩)
    else if l.rear = 0 then none
    else some (setQ (setPrev (setNext s l.rear b) b l.rear) (.wait k) ⟨l.head, b, l.count⟩)

/-- runtime/rt_chan.c:74-106 `waitq_remove`. -/
def waitRemove (s : St) (k b : Nat) : St :=
  let l := s.q (.wait k)
  let x := (s.mem b).prev
  let y := (s.mem b).next
  if x ≠ 0 then
    if y ≠ 0 then setPrev (setNext (setPrev (setNext s x y) y x) b 0) b 0
    else setPrev (setQ (setNext s x 0) (.wait k) { l with rear := x }) b 0
  else if y ≠ 0 then setNext (setQ (setPrev s y 0) (.wait k) { l with head := y }) b 0
  else if l.head = b then setQ s (.wait k) { l with head := 0, rear := 0 }
  else s

/-- runtime/rt_chan.c:108-145 `waitq_pop`: the cell woken (0: none).  The fuel bounds the rounds of the loop; the
theorem gives a fuel that suffices. -/
def waitPop (k : Nat) : Nat → St → Option (Nat × St)
  | 0, _ => none
  | n + 1, s =>
    let l := s.q (.wait k)
    if l.head = 0 then
      if l.rear ≠ 0 then none else some (0, s)
    else if (s.mem l.head).co = 0 then none
    else
      let b := l.head
      let h := (s.mem b).next
      let s1 := if h = 0 then setQ s (.wait k) { l with head := 0, rear := 0 }
        else setQ (setPrev s h 0) (.wait k) { l with head := h }
      let s2 := setNext (setPrev s1 b 0) b 0
      if (s2.mem b).isSelect = true then
        if s2.done (s2.mem b).co = true then waitPop k n s2
        else some (b, { s2 with done := upd s2.done (s2.mem b).co true })
      else some (b, s2)

/-- runtime/rt_chan.c:641: `atomic_store(&co->select_done, 0)`. -/
def selectReset (s : St) (c : Nat) : St := { s with done := upd s.done c false }

/-- runtime/rt_chan.c:658-662: `is_select = false` on one of the cells of a finished select. -/
def selectClear (s : St) (b : Nat) : St := setSelect s b false

end Nature.Linkco
