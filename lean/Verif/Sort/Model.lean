/-!
Model of `sort` and `search` in std/builtin/vec.n.

A vector is its length and its contents.  Every index the code uses goes through
the bounds check the language inserts; a failing check is `none` (the program
panics).  `less(i, j)` is a comparison of the elements currently at `i` and `j`,
by an arbitrary function `lt` (the callback of the documented use
`v.sort(fn(int i, int j) => v[i] < v[j])`).  Indices are unbounded naturals: no
index of the code goes below zero except the loop counters of `heap_sort`, whose
loops are written as recursions on the number of iterations.
-/
namespace Nature.Sort

variable {α : Type}

structure V (α : Type) where
  n : Nat
  f : Nat → α

/-- `less(i, j)`, with the two bounds checks of the callback's reads. -/
def less (lt : α → α → Bool) (v : V α) (i j : Nat) : Option Bool :=
  if i < v.n ∧ j < v.n then some (lt (v.f i) (v.f j)) else none

/-- Contents after exchanging `i` and `j`. -/
def exch (f : Nat → α) (i j : Nat) : Nat → α :=
  fun k => if k = i then f j else if k = j then f i else f k

/-- vec.n:160-168 `swap` (`self` is the vector handle, so the elements are
exchanged in place). -/
def swap (v : V α) (i j : Nat) : Option (V α) :=
  if i = j then some v
  else if i < v.n ∧ j < v.n then some { v with f := exch v.f i j }
  else none

/-- vec.n:154-156, the inner loop of `insertion_sort`. -/
def insInner (lt : α → α → Bool) (a : Nat) : Nat → V α → Option (V α)
  | 0, v => some v
  | j + 1, v =>
    if j + 1 > a then
      (less lt v (j + 1) j).bind fun r =>
      if r then (swap v (j + 1) j).bind fun v => insInner lt a j v else some v
    else some v

/-- vec.n:153-157, the outer loop: `k` iterations starting at `i`. -/
def insOuter (lt : α → α → Bool) (a : Nat) : Nat → Nat → V α → Option (V α)
  | 0, _, v => some v
  | k + 1, i, v => (insInner lt a i v).bind fun v => insOuter lt a k (i + 1) v

/-- vec.n:152-158 `insertion_sort`. -/
def insertionSort (lt : α → α → Bool) (v : V α) (a b : Nat) : Option (V α) :=
  insOuter lt a (b - (a + 1)) (a + 1) v

/-- vec.n:187-205 `sift_down`. -/
def siftDown (lt : α → α → Bool) (v : V α) (root hi first : Nat) : Option (V α) :=
  if 2 * root + 1 ≥ hi then some v
  else
    (if 2 * root + 1 + 1 < hi then less lt v (first + (2 * root + 1)) (first + (2 * root + 1) + 1)
     else some false).bind fun r =>
    (less lt v (first + root) (first + (if r then 2 * root + 1 + 1 else 2 * root + 1))).bind fun s =>
    if !s then some v
    else
      (swap v (first + root) (first + (if r then 2 * root + 1 + 1 else 2 * root + 1))).bind fun v =>
      siftDown lt v (if r then 2 * root + 1 + 1 else 2 * root + 1) hi first
termination_by hi - root
decreasing_by split <;> omega

/-- vec.n:176-178: `for i = k-1; i >= 0; i -= 1 { sift_down(i, hi, first) }`. -/
def heapify (lt : α → α → Bool) (hi first : Nat) : Nat → V α → Option (V α)
  | 0, v => some v
  | k + 1, v => (siftDown lt v k hi first).bind fun v => heapify lt hi first k v

/-- vec.n:181-184: `for i = k-1; i >= 0; i -= 1 { swap(first, first+i); sift_down(0, i, first) }`. -/
def heapPop (lt : α → α → Bool) (first : Nat) : Nat → V α → Option (V α)
  | 0, v => some v
  | k + 1, v =>
    (swap v first (first + k)).bind fun v =>
    (siftDown lt v 0 k first).bind fun v => heapPop lt first k v

/-- vec.n:170-185 `heap_sort`. -/
def heapSort (lt : α → α → Bool) (v : V α) (a b : Nat) : Option (V α) :=
  (heapify lt (b - a) a ((b - a - 1) / 2 + 1) v).bind fun v => heapPop lt a (b - a) v

/-- vec.n:272-274 and 293-295: `for i <= j && less(i, a) { i += 1 }`. -/
def scanUp (lt : α → α → Bool) (v : V α) (a i j : Nat) : Option Nat :=
  if i ≤ j then
    (less lt v i a).bind fun r => if r then scanUp lt v a (i + 1) j else some i
  else some i
termination_by j + 1 - i

/-- vec.n:276-278 and 297-299: `for i <= j && !less(j, a) { j -= 1 }`
(`i ≥ 1`, so `j ≥ 1` whenever it is decremented). -/
def scanDown (lt : α → α → Bool) (v : V α) (a i : Nat) : Nat → Option Nat
  | 0 => if i ≤ 0 then (less lt v 0 a).bind fun r => if !r then none else some 0 else some 0
  | j + 1 =>
    if i ≤ j + 1 then
      (less lt v (j + 1) a).bind fun r => if !r then scanDown lt v a i j else some (j + 1)
    else some (j + 1)

/-- vec.n:292-308, the main loop of `partition`; returns the vector and the
final `j`.  `fuel` bounds the number of iterations. -/
def partLoop (lt : α → α → Bool) (a : Nat) : Nat → V α → Nat → Nat → Option (V α × Nat)
  | 0, _, _, _ => none
  | fuel + 1, v, i, j =>
    (scanUp lt v a i j).bind fun i =>
    (scanDown lt v a i j).bind fun j =>
    if i > j then some (v, j)
    else (swap v i j).bind fun v => partLoop lt a fuel v (i + 1) (j - 1)

/-- vec.n:266-313 `partition`; the result is the vector, `mid` and
`already_partitioned`. -/
def partition (lt : α → α → Bool) (v : V α) (a b pivot : Nat) : Option (V α × Nat × Bool) :=
  (swap v a pivot).bind fun v =>
  (scanUp lt v a (a + 1) (b - 1)).bind fun i =>
  (scanDown lt v a i (b - 1)).bind fun j =>
  if i > j then (swap v a j).bind fun v => some (v, j, true)
  else
    (swap v i j).bind fun v =>
    (partLoop lt a (b - a) v (i + 1) (j - 1)).bind fun p =>
    (swap p.1 a p.2).bind fun v => some (v, p.2, false)

/-- vec.n:315-324 `break_patterns`. -/
def breakPatterns (v : V α) (a b : Nat) : Option (V α) :=
  if b - a ≥ 8 then
    (swap v (a + (b - a) / 4) (a + (b - a) / 4 * 3)).bind fun v =>
    swap v (a + (b - a) / 4 * 2) (a + (b - a) / 4 * 3 - 1)
  else some v

/-- vec.n:207-263 `pdqsort`.  `fuel` bounds recursion depth plus iterations
(running out of it is `none`, which the theorems exclude); `wb` is
`was_balanced`.  `was_partitioned` is never read by the code. -/
def pdqsort (lt : α → α → Bool) : Nat → V α → Nat → Nat → Nat → Bool → Option (V α)
  | 0, _, _, _, _, _ => none
  | fuel + 1, v, a, b, limit, wb =>
    if b - a ≤ 12 then insertionSort lt v a b
    else if limit = 0 then heapSort lt v a b
    else
      (if !wb then breakPatterns v a b else some v).bind fun v =>
      (partition lt v a b (a + (b - a) / 2)).bind fun p =>
      if p.2.1 - a < b - p.2.1 - 1 then
        (pdqsort lt fuel p.1 a p.2.1 (if !wb then limit - 1 else limit) true).bind fun v =>
        if p.2.1 + 1 ≥ b then some v
        else pdqsort lt fuel v (p.2.1 + 1) b (if !wb then limit - 1 else limit)
          (decide (p.2.1 - a ≥ (b - a) / 8))
      else
        (pdqsort lt fuel p.1 (p.2.1 + 1) b (if !wb then limit - 1 else limit) true).bind fun v =>
        if a ≥ p.2.1 then some v
        else pdqsort lt fuel v a p.2.1 (if !wb then limit - 1 else limit)
          (decide (b - p.2.1 - 1 ≥ (b - a) / 8))

/-- vec.n:142-150 `sort` on the contents `l`. -/
def sort [Inhabited α] (lt : α → α → Bool) (l : List α) : Option (List α) :=
  if l.length ≤ 1 then some l
  else
    (pdqsort lt (l.length + 1) ⟨l.length, fun i => l.getD i default⟩ 0 l.length 64 true).map
      fun v => (List.range v.n).map v.f

/-- vec.n:326-344 `search`: `mid` is always within bounds of the vector, so the
callback may index it. -/
def searchLoop (pred : Nat → Bool) (low high : Nat) : Nat :=
  if low < high then
    if !pred (low + (high - low) / 2) then searchLoop pred (low + (high - low) / 2 + 1) high
    else searchLoop pred low (low + (high - low) / 2)
  else low
termination_by high - low

def search (n : Nat) (pred : Nat → Bool) : Nat := searchLoop pred 0 n

end Nature.Sort
