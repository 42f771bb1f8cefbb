/-
Live ranges of the register allocator (src/register/interval.c).

An interval carries a linked list of ranges `[from, to)` and a linked list of use positions.  Both
are modelled as Lean lists (utils/linked.c: a doubly linked list that ends in an empty node).
`first_range` and `last_range` are pointers to the first and the last element; the code sets them
after every change, here they are read off the list.  Positions are C `int`s far below 2^31 and are
modelled as `Int` without overflow.  `none` is a failed assert.
-/
namespace Nature.Ranges

/-- `interval_range_t` (src/register/interval.h). -/
structure Range where
  lo : Int
  hi : Int
deriving Repr, DecidableEq

/-- The loop from the tail (interval.c:847-861); the list is given in reverse. -/
def scanBack (off p : Int) : List Range → Bool
  | [] => false
  | r :: rs =>
    if r.lo ≤ p ∧ p < r.hi + off then true
    else if r.hi + off ≤ p then false
    else scanBack off p rs

/-- The loop from the head (interval.c:862-877). -/
def scanFwd (off p : Int) : List Range → Bool
  | [] => false
  | r :: rs =>
    if r.lo ≤ p ∧ p < r.hi + off then true
    else if r.lo > p then false
    else scanFwd off p rs

/-- `interval_covered` (interval.c:822-880). -/
def covered (rs : List Range) (p : Int) (isInput : Bool) : Bool :=
  match rs with
  | [] => false                                             -- interval.c:823
  | first :: rest =>
    let last := rest.getLastD first
    let off : Int := if isInput then 1 else 0               -- interval.c:830
    if p > last.hi + off ∨ p < first.lo then false          -- interval.c:832
    else if rest = [] then decide (first.lo ≤ p ∧ p < first.hi + off)   -- interval.c:837
    else
      let span := last.hi - first.lo
      let pos := p - first.lo
      if pos > span / 2 then scanBack off p (first :: rest).reverse
      else scanFwd off p (first :: rest)

/-- `interval_expired` (interval.c:812-820). -/
def expired (first : Range) (rest : List Range) (p : Int) (isInput : Bool) : Bool :=
  let p := if isInput then p - 1 else p
  decide (p ≥ (rest.getLastD first).hi)

/-- The loop that merges the ranges the new end reaches (interval.c:1146-1156): `hi` is
`first_range->to`, the list holds the ranges after the first. -/
def absorb (t : Int) (hi : Int) : List Range → Int × List Range
  | [] => (hi, [])
  | r :: rs => if r.lo ≤ t then absorb t (if r.hi > hi then r.hi else hi) rs else (hi, r :: rs)

/-- `interval_add_range` (interval.c:1122-1171). -/
def addRange (rs : List Range) (f t : Int) : Option (List Range) :=
  if ¬ f ≤ t then none                                      -- interval.c:1123
  else match rs with
  | [] => some [⟨f, t⟩]                                      -- interval.c:1125
  | first :: rest =>
    if first.lo ≤ t then                                    -- interval.c:1135
      let lo := if f < first.lo then f else first.lo
      if t > first.hi then
        let (hi, rest') := absorb t t rest
        some (⟨lo, hi⟩ :: rest')
      else some (⟨lo, first.hi⟩ :: rest)
    else some (⟨f, t⟩ :: first :: rest)                      -- interval.c:1164

/-- What a definition at position `d` does (interval.c:708-719, in `build_intervals`). -/
def define (rs : List Range) (d : Int) : Option (List Range) :=
  match rs with
  | [] => addRange [] d (d + 1)
  | first :: rest =>
    if first.lo < d then some (⟨d, first.hi⟩ :: rest)
    else addRange (first :: rest) d (d + 1)

/-- The loop of `interval_split_at` over the ranges (interval.c:1267-1293): left ranges, right
ranges, `need_mov`. -/
def splitRanges (pos : Int) : List Range → List Range × List Range × Bool
  | [] => ([], [], false)
  | r :: rs =>
    let (l, rt, m) := splitRanges pos rs
    let c := decide (r.lo ≤ pos ∧ pos < r.hi)
    if r.hi ≤ pos then (r :: l, rt, c || m)
    else if r.lo ≥ pos then (l, r :: rt, c || m)
    else (⟨r.lo, pos⟩ :: l, ⟨pos, r.hi⟩ :: rt, c || m)

/-- The use positions after a split (interval.c:1302-1311): everything from the first position
above the split point on goes to the child. -/
def splitUses (pos : Int) : List Int → List Int × List Int
  | [] => ([], [])
  | u :: us =>
    if u ≤ pos then
      let (l, r) := splitUses pos us
      (u :: l, r)
    else ([], u :: us)

/-- The two halves of an interval. -/
structure Split where
  left : List Range
  right : List Range
  usesL : List Int
  usesR : List Int
  needMov : Bool
deriving Repr, DecidableEq

/-- `interval_split_at` (interval.c:1232-1318) without the list of children and without the
insertion of the move (`closure_insert_mov`), which `needMov` asks for. -/
def splitAt (rs : List Range) (uses : List Int) (pos : Int) : Option Split :=
  match rs with
  | [] => none
  | first :: rest =>
    if ¬ pos < (rest.getLastD first).hi then none           -- interval.c:1233
    else if ¬ pos > first.lo then none                      -- interval.c:1234
    else
      let (l, r, m) := splitRanges pos rs
      let (ul, ur) := splitUses pos uses
      some ⟨l, r, ul, ur, m⟩

/-- `interval_add_use_pos` (interval.c:1180-1197). -/
def addUse : List Int → Int → List Int
  | [], p => [p]
  | u :: us, p => if u < p then u :: addUse us p else p :: u :: us

/-- `interval_next_use_position` (interval.c:1200-1210). -/
def nextUse : List Int → Int → Int
  | [], _ => 0
  | u :: us, a => if u > a then u else nextUse us a

/-- The loop of `interval_is_intersect` (interval.c:888-894). -/
def intersectLoop (sel : List Range) : Nat → Int → Bool
  | 0, _ => false
  | n + 1, p => if covered sel p false then true else intersectLoop sel n (p + 1)

/-- `interval_is_intersect` (interval.c:884-897). -/
def isIntersect (curFirst : Range) (curRest : List Range) (selFirst : Range)
    (selRest : List Range) : Option Bool :=
  if ¬ (selRest.getLastD selFirst).hi > curFirst.lo then none
  else some (intersectLoop (selFirst :: selRest)
    (((curRest.getLastD curFirst).hi - curFirst.lo).toNat) curFirst.lo)

/-- How the search of `interval_next_intersect` ends: `adjust p` goes through the label test at
`END`, `direct p` returns at once (interval.c:958). -/
inductive Found where
  | adjust (p : Int)
  | direct (p : Int)
  | failed
deriving Repr, DecidableEq

/-- The start of the next range of `select` (interval.c:954-959). -/
def nextStart (clt : Int) : List Range → Found
  | n :: _ => if n.lo > clt then .direct n.lo else .failed
  | [] => .failed

/-- The loop of `interval_next_intersect` (interval.c:922-970).  `sfc` is `select_first_cover`,
-1 when unset. -/
def seek (cff clt : Int) (sfc : Int) : List Range → List Range → Found
  | c :: cs, s :: ss =>
    let sfc := if sfc = -1 ∧ s.lo > cff then s.lo else sfc
    if c.lo < s.hi ∧ s.lo < c.hi then .adjust (if c.lo > s.lo then c.lo else s.lo)
    else if s.lo > clt then .adjust s.lo
    else if s.lo = clt ∧ s.hi > s.lo + 1 then .adjust (s.lo + 1)
    else if s.lo = clt ∧ ss ≠ [] then nextStart clt ss
    else if c.hi ≤ s.lo then seek cff clt sfc cs (s :: ss)
    else seek cff clt sfc (c :: cs) ss
  | _, _ => if sfc ≠ -1 then .adjust sfc else .failed
termination_by cs ss => cs.length + ss.length

/-- A basic block: the id of its label, of its last operation, and its number of successors. -/
structure Block where
  label : Int
  last : Int
  succs : Nat
deriving Repr, DecidableEq

/-- The loop over the blocks from the last one down (interval.c:984-1005); the list is given in
reverse. -/
def avoidLabel (p : Int) : List Block → Option Int
  | [] => some p
  | b :: bs =>
    if b.label < p then some p
    else if b.label = p then
      match bs with
      | [] => none                                          -- interval.c:995
      | q :: _ =>
        if q.succs = 1 then some (q.last - 1)
        else if q.succs = 2 then some (q.last - 3)
        else none
    else avoidLabel p bs

/-- `interval_next_intersect` (interval.c:909-1008). -/
def nextIntersect (blocks : List Block) (cur sel : List Range) : Option Int :=
  match cur, sel with
  | c :: cs, s :: ss =>
    if ¬ (ss.getLastD s).hi > c.lo then none                -- interval.c:911
    else match seek c.lo (cs.getLastD c).hi (-1) cur sel with
      | .adjust p => if p > 0 then avoidLabel p blocks.reverse else none
      | .direct p => some p
      | .failed => none
  | _, _ => none

end Nature.Ranges
