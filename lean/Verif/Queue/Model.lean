/-
Model of the runtime's linked queues (/repo/runtime/rt_linked.h: run queues, coroutine lists, gc work lists) and
of the compiler's lists (/repo/utils/linked.c), which share their layout: a doubly linked list whose last node,
`rear`, is always blank.

Nodes live in a heap of cells; a cell that is not allocated is `none`, and touching it is undefined behaviour.
Every operation is atomic: rt_linked.h takes `l->locker` around each of them.  Addresses are natural numbers and
0 is NULL.  `count` is a `uint64_t` in C and a natural number here.
The result `none` of an operation means a failed assertion or undefined behaviour.
-/
namespace Nature.Queue

/-- runtime/rt_linked.h:13-17 `rt_linked_node_t`; utils/linked.h:14-18 `linked_node`. -/
structure Node where
  value : Nat
  succ : Nat
  prev : Nat
deriving DecidableEq, Repr

/-- What `fixalloc_alloc` returns: zeroed memory (runtime/fixalloc.c:26-64); also `linked_new_node`,
utils/linked.c:69-75. -/
def blank : Node := ⟨0, 0, 0⟩

/-- runtime/rt_linked.h:19-27 `rt_linked_fixalloc_t`, with the memory its nodes live in; utils/linked.h:23-27
`linked_t` (where `head` is called `front`). -/
structure Q where
  head : Nat
  rear : Nat
  count : Nat
  mem : Nat → Option Node

/-- Store to one cell. -/
def put (m : Nat → Option Node) (a : Nat) (n : Option Node) : Nat → Option Node := fun x => if x = a then n else m x

/-- `a->succ = v`; `none`: `a` is not allocated. -/
def setSucc (m : Nat → Option Node) (a v : Nat) : Option (Nat → Option Node) :=
  (m a).map fun n => put m a (some { n with succ := v })

/-- `a->prev = v`. -/
def setPrev (m : Nat → Option Node) (a v : Nat) : Option (Nat → Option Node) :=
  (m a).map fun n => put m a (some { n with prev := v })

/-- `a->value = v`. -/
def setValue (m : Nat → Option Node) (a v : Nat) : Option (Nat → Option Node) :=
  (m a).map fun n => put m a (some { n with value := v })

/-- The addresses the node allocator may return: not NULL and not in use (property C10 of the allocator). -/
def Fresh (q : Q) (a : Nat) : Prop := a ≠ 0 ∧ q.mem a = none

/-- runtime/rt_linked.h:29-39 `rt_linked_fixalloc_init`; utils/linked.c:13-22 `linked_new`.  `e` is the address of
the blank node. -/
def init (e : Nat) : Q := ⟨e, e, 0, put (fun _ => none) e (some blank)⟩

/-- runtime/rt_linked.h:41-46 `rt_linked_fixalloc_empty`; utils/linked.c:77-82 `linked_empty`. -/
def isEmpty (q : Q) : Bool := q.count == 0

/-- runtime/rt_linked.h:48-64 `rt_linked_fixalloc_push`; utils/linked.c:25-34 `linked_push`.  `a` is the address
of the new blank node. -/
def push (q : Q) (a v : Nat) : Option Q :=
  let m0 := put q.mem a (some blank)
  (setPrev m0 a q.rear).bind fun m1 =>
  (setSucc m1 q.rear a).bind fun m2 =>
  (setValue m2 q.rear v).bind fun m3 =>
  some ⟨q.head, a, q.count + 1, m3⟩

/-- runtime/rt_linked.h:67-83 `rt_linked_fixalloc_push_heap`. -/
def pushFront (q : Q) (a v : Nat) : Option Q :=
  let m0 := put q.mem a (some blank)
  (setValue m0 a v).bind fun m1 =>
  (setSucc m1 a q.head).bind fun m2 =>
  (setPrev m2 q.head a).bind fun m3 =>
  some ⟨a, q.rear, q.count + 1, m3⟩

/-- runtime/rt_linked.h:85-106 `rt_linked_fixalloc_pop_no_lock`, and 109-114 `rt_linked_fixalloc_pop`: the value
popped (NULL if the queue is empty) and the queue afterwards.  utils/linked.c:52-67 `linked_pop_free` is the same
without the assertions. -/
def pop (q : Q) : Option (Nat × Q) :=
  if q.count = 0 then some (0, q)
  else if q.head = 0 then none
  else (q.mem q.head).bind fun n =>
    if n.succ = 0 then none
    else (setPrev q.mem n.succ 0).bind fun m1 =>
      some (n.value, ⟨n.succ, q.rear, q.count - 1, put m1 q.head none⟩)

/-- runtime/rt_linked.h:116-125 `rt_linked_fixalloc_first`. -/
def first (q : Q) : Nat := if q.count = 0 then 0 else q.head

/-- runtime/rt_linked.h:153-163 `rt_linked_fixalloc_last`; utils/linked.c:138-143 `linked_last`. -/
def last (q : Q) : Option Nat :=
  if q.count = 0 then some 0 else (q.mem q.rear).map (·.prev)

/-- runtime/rt_linked.h:127-151 `rt_linked_fixalloc_remove`. -/
def remove (q : Q) (a : Nat) : Option Q :=
  if a = 0 then some q
  else if a = q.head then (pop q).map (·.2)
  else (q.mem a).bind fun n =>
    (setSucc q.mem n.prev n.succ).bind fun m1 =>
    (setPrev m1 n.succ n.prev).bind fun m2 =>
    some ⟨q.head, q.rear, q.count - 1, put m2 a none⟩

/-- The walk of runtime/collector.c:775-795 (`gc_work`), with its removals left out: visit nodes from the head
until one holds NULL.  `fuel` bounds the number of steps; the theorem gives a fuel that suffices. -/
def walk (m : Nat → Option Node) : Nat → Nat → Option (List Nat)
  | 0, _ => none
  | fuel + 1, a => (m a).bind fun n =>
      if n.value = 0 then some [] else (walk m fuel n.succ).map (a :: ·)

/-- utils/linked.c:150-177 `linked_insert_after`: the handle of the new node and the list.  `a` is the address of the
node allocated at once; on the path through `linked_push` (prev == rear) that node is lost, and `b` is the address of
the one `linked_push` allocates. -/
def insertAfter (q : Q) (p a b v : Nat) : Option (Nat × Q) :=
  let m0 := put q.mem a (some { blank with value := v })
  if p = q.rear then
    (push { q with mem := m0 } b v).bind fun q' => (q'.mem q'.rear).map fun n => (n.prev, q')
  else if p = 0 then
    (setSucc m0 a q.head).bind fun m1 =>
    (setPrev m1 q.head a).bind fun m2 =>
    some (a, ⟨a, q.rear, q.count + 1, m2⟩)
  else (m0 p).bind fun n =>
    (setSucc m0 p a).bind fun m1 =>
    (setPrev m1 a p).bind fun m2 =>
    (setSucc m2 a n.succ).bind fun m3 =>
    (setPrev m3 n.succ a).bind fun m4 =>
    some (a, ⟨q.head, q.rear, q.count + 1, m4⟩)

/-- utils/linked.c:180-207 `linked_insert_before`. -/
def insertBefore (q : Q) (s a b v : Nat) : Option Q :=
  let m0 := put q.mem a (some { blank with value := v })
  let front : Option Q :=
    (setSucc m0 a q.head).bind fun m1 =>
    (setPrev m1 q.head a).bind fun m2 =>
    some ⟨a, q.rear, q.count + 1, m2⟩
  if s = q.rear then push { q with mem := m0 } b v
  else if s = 0 then front
  else (m0 s).bind fun n =>
    if n.prev = 0 then front
    else
      (setSucc m0 n.prev a).bind fun m1 =>
      (setPrev m1 a n.prev).bind fun m2 =>
      (setSucc m2 a s).bind fun m3 =>
      (setPrev m3 s a).bind fun m4 =>
      some ⟨q.head, q.rear, q.count + 1, m4⟩

/-- utils/linked.c:5-11 `linked_count`, the `LINKED_FOR` loop of utils/linked.h:9; the counter is a `uint16_t`. -/
def countFrom (m : Nat → Option Node) (rear : Nat) : Nat → Nat → Nat → Option Nat
  | 0, _, _ => none
  | fuel + 1, a, c => if a = rear then some c
      else (m a).bind fun n => countFrom m rear fuel n.succ ((c + 1) % 2 ^ 16)

/-- utils/linked.c:92-116 `linked_split`: the list before `a` (in the old structure) and the list from `a` on.
`e` is the address of the new blank node.  The blank node that `linked_new` makes for the new list is lost. -/
def split (q : Q) (a e fuel : Nat) : Option (Q × Q) :=
  if q.count = 0 ∨ a = 0 then none
  else (countFrom q.mem q.rear fuel a 0).bind fun c2 =>
    let m0 := put q.mem e (some blank)
    if a = q.head then some (⟨e, e, 0, m0⟩, ⟨a, q.rear, c2, m0⟩)
    else (m0 a).bind fun n =>
      (setPrev m0 e n.prev).bind fun m1 =>
      (setSucc m1 n.prev e).bind fun m2 =>
      (countFrom m2 e fuel q.head 0).bind fun c1 =>
      some (⟨q.head, e, c1, m2⟩, ⟨a, q.rear, c2, m2⟩)

end Nature.Queue
