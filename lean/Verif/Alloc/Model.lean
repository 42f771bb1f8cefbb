import Verif.Ranges.Model
/-
The walk of the linear scan register allocator (src/register/allocate.c) and the functions of
src/register/interval.c it calls: choosing a free register, taking a register away from another
variable, splitting and spilling.

Intervals live in a heap and are named by numbers: the physical register `r` is interval `r`
(1 ≤ r < `alloc_reg_count()`), variable `k` of the function is interval `alloc_reg_count() + k`, and
the parts that splitting makes follow.  The linked lists are Lean lists.  Positions are C `int`s far
below 2^31, modelled as `Int` without overflow.  `none` stands for a failed assert or a null
pointer dereference (the release build keeps asserts: CMakeLists.txt sets -O2 without -DNDEBUG).

Live ranges, their splitting and their intersection come from `Verif.Ranges.Model`.

Not modelled here: the construction of the intervals (`interval_build`), the moves on block edges
(`resolve_data_flow`, see C37) and the ordering of the moves of one position
(`handle_parallel_moves`, see C36).
-/
namespace Nature.Alloc
open Nature.Ranges (Range)

/-- `alloc_kind_e` (src/types.h:24-30); a use position always has one of the last four kinds. -/
inductive Kind where
  | stack | must | should | float
deriving Repr, DecidableEq

/-- `use_pos_t`. -/
structure Use where
  pos : Int
  kind : Kind
deriving Repr, DecidableEq

/-- The two allocation classes `LIR_FLAG_ALLOC_INT` and `LIR_FLAG_ALLOC_FLOAT`. -/
inductive Cls where
  | int | float
deriving Repr, DecidableEq

/-- What the walk reads of a basic block: ids of its label and of its last operation, number of
successors, `loop.depth`, `loop.index` and `has_call` of the header of that loop. -/
structure Blk where
  label : Int
  last : Int
  succs : Nat
  depth : Int
  index : Int
  hasCall : Bool
deriving Repr, DecidableEq

/-- The part of a block that `interval_next_intersect` reads. -/
def Blk.base (b : Blk) : Ranges.Block := ⟨b.label, b.last, b.succs⟩

/-- `interval_t` (src/types.h:369-393).  `size` is `type_value_size(var->type)`.  `first_range` and
`last_range` are read off the list, `stack_slot` is kept in the state (it is shared between the
parts of a variable), `remat_ops` is set exactly when `is_const_float` is. -/
structure Iv where
  index : Nat
  ranges : List Range
  uses : List Use
  parent : Option Nat
  children : List Nat
  size : Int
  spilled : Bool
  hint : Option Nat
  phiHints : List Nat
  assigned : Nat
  cls : Cls
  fixed : Bool
  constFloat : Bool
deriving Repr, DecidableEq

/-- A move inserted by a split (`closure_insert_mov`): its id, the part it reads, the part it
writes. -/
structure Move where
  pos : Int
  src : Nat
  dst : Nat
deriving Repr, DecidableEq

/-- `allocate_t` (src/register/allocate.h:17-23) and what the walk changes in `closure_t`: the
intervals, their count, the slots and the size of the frame, the inserted moves. -/
structure St where
  heap : Nat → Iv
  next : Nat
  count : Nat
  unhandled : List Nat
  handled : List Nat
  active : List Nat
  inactive : List Nat
  slots : Nat → Int
  stackOffset : Int
  moves : List Move

/-- What the walk reads and never changes: the blocks, `alloc_reg_count()` and the class of each
register. -/
structure Cfg where
  blocks : List Blk
  nregs : Nat
  cls : Nat → Cls

/-- `first_range->from`.  Every interval in a list has a range: `start` fails otherwise and a split
leaves ranges on both sides. -/
def Iv.frm (iv : Iv) : Int :=
  match iv.ranges with
  | [] => 0
  | r :: _ => r.lo

/-- `last_range->to`. -/
def Iv.til (iv : Iv) : Int :=
  match iv.ranges with
  | [] => 0
  | r :: rs => (rs.getLastD r).hi

/-- Write interval `i`. -/
def St.set (s : St) (i : Nat) (v : Iv) : St :=
  { s with heap := fun j => if j = i then v else s.heap j }

/-- `first_use_pos(i, kind)` for a kind (interval.c:1630-1636); `interval_must_reg_pos` and
`interval_must_stack_pos` (interval.c:1364-1387) are the same loop. -/
def firstKind (k : Kind) : List Use → Option Use
  | [] => none
  | u :: us => if u.kind = k then some u else firstKind k us

/-- `interval_next_use_position` (interval.c:1201-1211). -/
def nextUse : List Use → Int → Int
  | [], _ => 0
  | u :: us, a => if u.pos > a then u.pos else nextUse us a

/-- The use positions after a split (interval.c:1302-1311): everything from the first position
above the split point on goes to the child. -/
def splitUses (pos : Int) : List Use → List Use × List Use
  | [] => ([], [])
  | u :: us => if u.pos ≤ pos then (u :: (splitUses pos us).1, (splitUses pos us).2) else ([], u :: us)

/-! ### where to split -/

/-- The position before the branches that end a block (interval.c:1031-1036, 1093-1099). -/
def beforeBranch (q : Blk) : Option Int :=
  if q.succs = 1 then some (q.last - 1)
  else if q.succs = 2 then some (q.last - 3)
  else none

/-- The first loop of `interval_find_optimal_split_pos` (interval.c:1019-1038): the blocks are given
from the last to the first; `some none` means that the loop found nothing. -/
def labelSplit (before : Int) : List Blk → Option (Option Int)
  | [] => some none
  | b :: bs =>
    if b.label = before ∨ b.label = before - 1 then
      match bs with
      | [] => none                                          -- interval.c:1027
      | q :: _ => (beforeBranch q).map some
    else labelSplit before bs

/-- The search for a block outside of all loops (interval.c:1071-1106). -/
def outside (firstUse before : Int) : List Blk → Option (Option Int)
  | [] => some none
  | b :: bs =>
    if b.depth > 0 then outside firstUse before bs
    else if b.last ≤ firstUse then outside firstUse before bs
    else if b.label ≥ before then outside firstUse before bs
    else match beforeBranch b with
      | none => none                                        -- interval.c:1098
      | some p => if p > firstUse ∧ p < before then some (some p) else outside firstUse before bs

/-- The second loop of `interval_find_optimal_split_pos` (interval.c:1048-1113). -/
def loopSplit (constFloat : Bool) (firstUse before : Int) : List Blk → Option Int
  | [] => some (before - 1)
  | b :: bs =>
    if b.label ≤ before - 1 ∧ before - 1 ≤ b.last then
      if b.depth = 0 then some (before - 1)
      else if b.index ≥ 0 ∧ constFloat = false ∧ b.hasCall = true then some (before - 1)
      else match outside firstUse before (b :: bs) with
        | none => none
        | some none => some (before - 1)
        | some (some p) => some p
    else loopSplit constFloat firstUse before bs

/-- `interval_find_optimal_split_pos` (interval.c:1017-1113). -/
def optimalSplit (blocks : List Blk) (iv : Iv) (before : Int) : Option Int :=
  match labelSplit before blocks.reverse with
  | none => none
  | some (some p) => some p
  | some none =>
    match iv.uses with
    | [] => none                                            -- interval.c:1043, null pointer
    | u :: _ =>
      if u.pos ≥ before then some (before - 1)
      else loopSplit iv.constFloat u.pos before blocks.reverse

/-! ### splitting and spilling -/

/-- The search of `closure_insert_mov` for the block to insert into (interval.c:472-485): the first
block that holds the position, which must not be its label. -/
def movOk (pos : Int) : List Blk → Bool
  | [] => false
  | b :: bs => if b.label ≤ pos ∧ pos < b.last then decide (b.label ≠ pos) else movOk pos bs

/-- Insert `c` behind the interval with the index `ix` (interval.c:1249-1255). -/
def insertAfter (heap : Nat → Iv) (ix c : Nat) : List Nat → List Nat
  | [] => []
  | x :: xs => if (heap x).index = ix then x :: c :: xs else x :: insertAfter heap ix c xs

/-- The children of the parent after a split of `i` (interval.c:1240-1262). -/
def newChildren (s : St) (i c : Nat) : List Nat :=
  match (s.heap i).parent with
  | some r =>
    match (s.heap r).children with
    | [] => [c]
    | x :: xs => insertAfter s.heap (s.heap i).index c (x :: xs)
  | none => c :: (s.heap i).children

/-- `interval_new_child` (interval.c:330-361) with the right half of the split. -/
def newChild (s : St) (i : Nat) (rs : List Range) (us : List Use) : Iv :=
  let root := (s.heap i).parent.getD i
  { index := s.count, ranges := rs, uses := us, parent := some root, children := [],
    size := (s.heap i).size, spilled := false, hint := some root, phiHints := [], assigned := 0,
    cls := (s.heap root).cls, fixed := false, constFloat := false }

/-- `interval_split_at` (interval.c:1232-1318): the new state and the child. -/
def splitAt (blocks : List Blk) (s : St) (i : Nat) (pos : Int) : Option (St × Nat) :=
  let iv := s.heap i
  if ¬ pos < iv.til then none                               -- interval.c:1233
  else if ¬ pos > iv.frm then none                          -- interval.c:1234
  else if iv.fixed then none                                -- interval.c:1235
  else
    let c := s.next
    let root := iv.parent.getD i
    let l := (Ranges.splitRanges pos iv.ranges).1
    let r := (Ranges.splitRanges pos iv.ranges).2.1
    let m := (Ranges.splitRanges pos iv.ranges).2.2
    let child := newChild s i r (splitUses pos iv.uses).2
    let kids := newChildren s i c
    let s1 := s.set c child
    let s2 := s1.set i { s1.heap i with ranges := l, uses := (splitUses pos iv.uses).1 }
    let s3 := s2.set root { s2.heap root with children := kids }
    if m && !movOk pos blocks then none                     -- interval.c:478, 484
    else some ({ s3 with
      next := s.next + 1, count := s.count + 1,
      moves := if m then s.moves ++ [⟨pos, i, c⟩] else s.moves }, c)

/-- `align_up` (utils/helper.h:486-494) for a positive alignment. -/
def alignUp (n a : Int) : Int := (n + a - 1) / a * a

/-- `interval_spill_slot` (interval.c:1325-1357) without the garbage collector's bit map. -/
def spillSlot (s : St) (i : Nat) : Option St :=
  let iv := s.heap i
  let s1 := s.set i { iv with assigned := 0, spilled := true }
  let root := iv.parent.getD i
  if iv.constFloat then some s1
  else if s.slots root ≠ 0 then some s1
  else if iv.size ≤ 8 ∧ iv.size > 0 then
    let off := alignUp (s.stackOffset + iv.size) iv.size
    some { s1 with stackOffset := off, slots := fun r => if r = root then -off else s.slots r }
  else none

/-- `sort_to_unhandled` (allocate.c:410-428). -/
def sortTo (heap : Nat → Iv) (d : Nat) : List Nat → List Nat
  | [] => [d]
  | x :: xs =>
    if (heap x).frm > (heap d).frm ∨ ((heap x).frm = (heap d).frm ∧ (heap x).index < (heap d).index)
    then d :: x :: xs
    else x :: sortTo heap d xs

/-- Put an interval into the list of unhandled intervals. -/
def enqueue (s : St) (d : Nat) : St := { s with unhandled := sortTo s.heap d s.unhandled }

/-- Split before a position: `interval_find_optimal_split_pos` and `interval_split_at`. -/
def splitBefore (blocks : List Blk) (s : St) (i : Nat) (before : Int) : Option (St × Nat) :=
  match optimalSplit blocks (s.heap i) before with
  | none => none
  | some p => splitAt blocks s i p

/-- The second half of `spill_interval` (allocate.c:303-312): give the part that needs a register
back, then spill. -/
def spillRest (blocks : List Blk) (s : St) (c : Nat) : Option St :=
  match firstKind .must (s.heap c).uses with
  | none => spillSlot s c
  | some u =>
    match optimalSplit blocks (s.heap c) u.pos with
    | none => none
    | some p =>
      if ¬ p < u.pos then none                              -- allocate.c:306
      else match splitAt blocks s c p with
        | none => none
        | some (s2, d) => spillSlot (enqueue s2 d) c

/-- `spill_interval` (allocate.c:286-313). -/
def spillInterval (blocks : List Blk) (s : St) (i : Nat) (before : Int) : Option St :=
  if before > (s.heap i).frm then
    match splitBefore blocks s i before with
    | none => none
    | some (s1, c) => spillRest blocks s1 c
  else spillRest blocks s i

/-- `assign_interval` (allocate.c:321-332). -/
def assignInterval (blocks : List Blk) (s : St) (i r : Nat) : Option St :=
  if r = 0 then none                                        -- allocate.c:322
  else
    let s1 := s.set i { s.heap i with assigned := r }
    match firstKind .stack (s1.heap i).uses with
    | none => some s1
    | some u => spillInterval blocks s1 i u.pos

/-! ### choosing a register -/

/-- First child with a register (allocate.c:114-121, 135-142). -/
def childReg (heap : Nat → Iv) : List Nat → Nat
  | [] => 0
  | c :: cs => if (heap c).assigned > 0 then (heap c).assigned else childReg heap cs

/-- The loop over the phi hints (allocate.c:127-145). -/
def phiReg (heap : Nat → Iv) : List Nat → Nat
  | [] => 0
  | h :: hs =>
    if (heap h).assigned > 0 then (heap h).assigned
    else if childReg heap (heap h).children > 0 then childReg heap (heap h).children
    else phiReg heap hs

/-- `find_hint_reg` (allocate.c:100-148). -/
def findHint (heap : Nat → Iv) (cur : Iv) : Nat :=
  match cur.hint with
  | some h =>
    if (heap h).assigned > 0 then (heap h).assigned
    else if childReg heap (heap h).children > 0 then childReg heap (heap h).children
    else phiReg heap cur.phiHints
  | none => phiReg heap cur.phiHints

/-- `INT32_MAX`. -/
def intMax : Int := 2147483647

/-- `set_pos` (allocate.c:269-275). -/
def setPos (l : Nat → Int) (k : Nat) (p : Int) : Nat → Int :=
  if l k ≠ -1 ∧ p > l k then l else fun j => if j = k then p else l j

/-- One round of the loop of `find_free_reg` (allocate.c:164-180); the pair is `full_reg_id`,
`max_part_reg_id`. -/
def freeRound (til frm : Int) (hint : Nat) (free : Nat → Int) (a : Nat × Nat) (i : Nat) : Nat × Nat :=
  if free i ≥ til then
    if a.1 = 0 ∨ i = hint ∨ (a.1 ≠ hint ∧ free i > free a.1) then (i, a.2) else a
  else if free i ≥ frm + 1 then
    if a.2 = 0 ∨ i = hint ∨ (a.2 ≠ hint ∧ free i > free a.2) then (a.1, i) else a
  else a

/-- The registers the loops visit: 1, …, `alloc_reg_count()` - 1. -/
def regIds (n : Nat) : List Nat := List.range' 1 (n - 1)

/-- `find_free_reg` (allocate.c:157-191); 0 for none. -/
def findFree (n : Nat) (til frm : Int) (hint : Nat) (free : Nat → Int) : Nat :=
  let a := (regIds n).foldl (freeRound til frm hint free) (0, 0)
  if a.1 > 0 then a.1 else a.2

/-- One round of the loop of `find_block_reg` (allocate.c:205-214). -/
def blockRound (frm : Int) (hint : Nat) (use : Nat → Int) (a i : Nat) : Nat :=
  if use i ≤ frm + 1 then a
  else if a = 0 ∨ i = hint ∨ (a ≠ hint ∧ use i > use a) then i else a

/-- `find_block_reg` (allocate.c:199-217). -/
def findBlock (n : Nat) (frm : Int) (hint : Nat) (use : Nat → Int) : Nat :=
  (regIds n).foldl (blockRound frm hint use) 0

/-- The initial positions (allocate.c:448-458, 542-554): the registers of the class of the current
interval are free for ever, -1 marks the others. -/
def initPos (cfg : Cfg) (c : Cls) : Nat → Int :=
  fun r => if 1 ≤ r ∧ r < cfg.nregs ∧ cfg.cls r = c then intMax else -1

/-- The loop over the active intervals of `allocate_free_reg` (allocate.c:461-467). -/
def freeActive (heap : Nat → Iv) (cur : Iv) (l : Nat → Int) : List Nat → (Nat → Int)
  | [] => l
  | j :: js =>
    if (heap j).cls ≠ cur.cls then freeActive heap cur l js
    else freeActive heap cur (setPos l (heap j).assigned 0) js

/-- The loop over the inactive intervals of `allocate_free_reg` (allocate.c:470-481). -/
def freeInactive (blocks : List Blk) (heap : Nat → Iv) (cur : Iv) (l : Nat → Int) :
    List Nat → Option (Nat → Int)
  | [] => some l
  | j :: js =>
    if (heap j).cls ≠ cur.cls then freeInactive blocks heap cur l js
    else match Ranges.nextIntersect (blocks.map Blk.base) cur.ranges (heap j).ranges with
      | none => none
      | some p =>
        if p = 0 then none                                  -- allocate.c:478
        else freeInactive blocks heap cur (setPos l (heap j).assigned p) js

/-- `ALLOC_USE_MIN` (src/register/interval.h). -/
def useMin : Int := 8

/-- Move an interval to the list of handled ones. -/
def St.handle (s : St) (i : Nat) : St := { s with handled := s.handled ++ [i] }

/-- Move an interval to the list of active ones. -/
def St.activate (s : St) (i : Nat) : St := { s with active := s.active ++ [i] }

/-- The end of `allocate_free_reg` (allocate.c:491-530) for the chosen register. -/
def takeFree (cfg : Cfg) (s : St) (cur reg : Nat) (fp : Int) : Option St :=
  if fp < (s.heap cur).til then
    match optimalSplit cfg.blocks (s.heap cur) fp with
    | none => none
    | some p =>
      match splitAt cfg.blocks s cur (if p = (s.heap cur).frm then fp else p) with
      | none => none
      | some (s1, d) =>
        match assignInterval cfg.blocks (enqueue s1 d) cur reg with
        | none => none
        | some s2 => some (s2.activate cur)
  else
    match assignInterval cfg.blocks s cur reg with
    | none => none
    | some s2 => some (s2.activate cur)

/-- `allocate_free_reg` (allocate.c:447-531): whether the interval is dealt with, and the state. -/
def allocFree (cfg : Cfg) (s : St) (cur : Nat) : Option (Bool × St) :=
  let iv := s.heap cur
  match freeInactive cfg.blocks s.heap iv (freeActive s.heap iv (initPos cfg iv.cls) s.active)
      s.inactive with
  | none => none
  | some free =>
    let reg := findFree cfg.nregs iv.til iv.frm (findHint s.heap iv) free
    if reg = 0 ∨ free reg = 0 then some (false, s)
    else match iv.uses with
      | [] => none                                          -- allocate.c:494, null pointer
      | u :: _ =>
        if u.kind ≠ .must ∧ free reg - iv.frm < useMin then
          match spillInterval cfg.blocks s cur 0 with
          | none => none
          | some s1 => some (true, s1.handle cur)
        else if free reg < u.pos then
          if u.kind = .must then
            match splitBefore cfg.blocks s cur u.pos with
            | none => none
            | some (s1, d) =>
              match spillInterval cfg.blocks (enqueue s1 d) cur 0 with
              | none => none
              | some s2 => some (true, s2.handle cur)
          else
            match spillInterval cfg.blocks s cur 0 with
            | none => none
            | some s1 => some (true, s1.handle cur)
        else
          match takeFree cfg s cur reg (free reg) with
          | none => none
          | some s1 => some (true, s1)

/-- `use_pos` and `block_pos`. -/
structure Pos where
  use : Nat → Int
  block : Nat → Int

/-- `SET_BLOCK_POS` (allocate.h:11-13). -/
def Pos.setBlock (l : Pos) (k : Nat) (p : Int) : Pos :=
  ⟨setPos l.use k p, setPos l.block k p⟩

/-- `SET_USE_POS` (allocate.h:8-9). -/
def Pos.setUse (l : Pos) (k : Nat) (p : Int) : Pos := ⟨setPos l.use k p, l.block⟩

/-- The loop over the active intervals of `allocate_block_reg` (allocate.c:558-590). -/
def blockActive (heap : Nat → Iv) (cur : Iv) (l : Pos) : List Nat → Option Pos
  | [] => some l
  | j :: js =>
    let sel := heap j
    if sel.cls ≠ cur.cls then blockActive heap cur l js
    else if cur.index = sel.index then none                 -- allocate.c:564
    else if sel.fixed then blockActive heap cur (l.setBlock sel.assigned 0) js
    else if ¬ cur.frm > sel.frm then none                   -- allocate.c:573
    else blockActive heap cur
      (l.setUse sel.assigned (if cur.frm - sel.frm ≤ 1 then 0 else nextUse sel.uses cur.frm)) js

/-- The loop over the inactive intervals of `allocate_block_reg` (allocate.c:595-615). -/
def blockInactive (blocks : List Blk) (heap : Nat → Iv) (cur : Iv) (l : Pos) :
    List Nat → Option Pos
  | [] => some l
  | j :: js =>
    let sel := heap j
    if sel.cls ≠ cur.cls then blockInactive blocks heap cur l js
    else if cur.index = sel.index then none                 -- allocate.c:600
    else match Ranges.nextIntersect (blocks.map Blk.base) cur.ranges sel.ranges with
      | none => none
      | some p =>
        if p = 0 then none                                  -- allocate.c:604
        else if sel.fixed then blockInactive blocks heap cur (l.setBlock sel.assigned p) js
        else blockInactive blocks heap cur (l.setUse sel.assigned (nextUse sel.uses cur.frm)) js

/-- `interval_is_intersect` on two intervals (interval.c:884-897). -/
def meets (cur sel : Iv) : Option Bool :=
  match cur.ranges, sel.ranges with
  | c :: cs, r :: rs => Ranges.isIntersect c cs r rs
  | _, _ => none                                            -- interval.c:885

/-- The loops that take the register `reg` away from the intervals of a list
(allocate.c:645-673): those that meet the current interval give way. -/
def evictMeeting (blocks : List Blk) (cur reg : Nat) (at_ : Int) : List Nat → St → Option St
  | [], s => some s
  | j :: js, s =>
    if (s.heap j).assigned ≠ reg then evictMeeting blocks cur reg at_ js s
    else match meets (s.heap cur) (s.heap j) with
      | none => none
      | some false => evictMeeting blocks cur reg at_ js s
      | some true =>
        if (s.heap j).fixed then evictMeeting blocks cur reg at_ js s
        else match spillInterval blocks s j at_ with
          | none => none
          | some s1 => evictMeeting blocks cur reg at_ js s1

/-- The loops of the last case (allocate.c:684-703): all of them give way. -/
def evictAll (blocks : List Blk) (reg : Nat) (at_ : Int) : List Nat → St → Option St
  | [], s => some s
  | j :: js, s =>
    if (s.heap j).assigned ≠ reg then evictAll blocks reg at_ js s
    else if (s.heap j).fixed then evictAll blocks reg at_ js s
    else match spillInterval blocks s j at_ with
      | none => none
      | some s1 => evictAll blocks reg at_ js s1

/-- The positions `allocate_block_reg` computes (allocate.c:539-615). -/
def blockPos (cfg : Cfg) (s : St) (iv : Iv) : Option Pos :=
  match blockActive s.heap iv ⟨initPos cfg iv.cls, initPos cfg iv.cls⟩ s.active with
  | none => none
  | some l => blockInactive cfg.blocks s.heap iv l s.inactive

/-- `allocate_block_reg` (allocate.c:539-716): whether the interval got a register, and the state.
In the loops over the active intervals the code does not test `fixed`; the register of an active
fixed interval is never chosen (its position is 0), so the test of `evictMeeting` and `evictAll`,
which the code makes for inactive ones, changes nothing there. -/
def allocBlock (cfg : Cfg) (s : St) (cur : Nat) : Option (Bool × St) :=
  let iv := s.heap cur
  match blockPos cfg s iv with
  | none => none
  | some l =>
    let reg := findBlock cfg.nregs iv.frm (findHint s.heap iv) l.use
    match iv.uses with
    | [] => none                                            -- allocate.c:622
    | u :: _ =>
      if reg = 0 ∨ l.use reg < u.pos then
        if u.kind = .must ∧ u.pos = iv.frm then none         -- allocate.c:631
        else match spillInterval cfg.blocks s cur 0 with
          | none => none
          | some s1 => some (false, s1)
      else if l.block reg ≥ iv.til then
        match evictMeeting cfg.blocks cur reg iv.frm s.active s with
        | none => none
        | some s1 =>
          match evictMeeting cfg.blocks cur reg iv.frm s.inactive s1 with
          | none => none
          | some s2 =>
            match assignInterval cfg.blocks s2 cur reg with
            | none => none
            | some s3 => some (true, s3)
      else
        match evictAll cfg.blocks reg iv.frm s.active s with
        | none => none
        | some s1 =>
          match evictAll cfg.blocks reg iv.frm s.inactive s1 with
          | none => none
          | some s2 =>
            match splitBefore cfg.blocks s2 cur (l.block reg) with
            | none => none
            | some (s3, d) =>
              match assignInterval cfg.blocks (enqueue s3 d) cur reg with
              | none => none
              | some s4 => some (true, s4)

/-! ### the walk -/

/-- `handle_active` (allocate.c:220-242). -/
def handleActive (at_ : Int) : List Nat → St → St
  | [], s => s
  | j :: js, s =>
    let ex := decide (at_ ≥ (s.heap j).til)
    let co := Ranges.covered (s.heap j).ranges at_ false
    if !co || ex then
      if ex then handleActive at_ js { s with active := s.active.erase j, handled := s.handled ++ [j] }
      else handleActive at_ js { s with active := s.active.erase j, inactive := s.inactive ++ [j] }
    else handleActive at_ js s

/-- `handle_inactive` (allocate.c:248-267). -/
def handleInactive (at_ : Int) : List Nat → St → St
  | [], s => s
  | j :: js, s =>
    let ex := decide (at_ ≥ (s.heap j).til)
    let co := Ranges.covered (s.heap j).ranges at_ false
    if co || ex then
      if ex then handleInactive at_ js { s with inactive := s.inactive.erase j, handled := s.handled ++ [j] }
      else handleInactive at_ js { s with inactive := s.inactive.erase j, active := s.active ++ [j] }
    else handleInactive at_ js s

/-- The hint of the interval after the loop over its phi hints (allocate.c:376-384): the last one
that has a register. -/
def phiHint (heap : Nat → Iv) (old : Option Nat) : List Nat → Option Nat
  | [] => old
  | h :: hs => phiHint heap (if (heap h).assigned ≠ 0 then some h else old) hs

/-- The choice between the two ways to get a register (allocate.c:387-400). -/
def allocate (cfg : Cfg) (s : St) (cur : Nat) : Option St :=
  match allocFree cfg s cur with
  | none => none
  | some (true, s1) => some s1
  | some (false, s1) =>
    match allocBlock cfg s1 cur with
    | none => none
    | some (true, s2) => some (s2.activate cur)
    | some (false, s2) => some (s2.handle cur)

/-- The first use is soon followed by one that needs the stack (allocate.c:361-367). -/
def tooShort (u : Use) (us : List Use) : Bool :=
  match firstKind .stack (u :: us) with
  | none => false
  | some n => decide (u.kind ≠ .must) && decide (n.pos - u.pos < useMin)

/-- One round of `allocate_walk` (allocate.c:344-400) for the interval `cur`, already taken from the
list of unhandled ones. -/
def round (cfg : Cfg) (s : St) (cur : Nat) : Option St :=
  if (s.heap cur).assigned ≠ 0 then some (s.handle cur)
  else
    let at_ := (s.heap cur).frm
    let s1 := handleActive at_ s.active s
    let s2 := handleInactive at_ s1.inactive s1
    let spill : Option St :=
      match spillInterval cfg.blocks s2 cur 0 with
      | none => none
      | some s3 => some (s3.handle cur)
    match (s2.heap cur).uses with
    | [] => spill
    | u :: us =>
      if u.kind = .stack then spill
      else if tooShort u us then spill
      else if (s2.heap cur).constFloat then spill
      else
        allocate cfg (s2.set cur
          { s2.heap cur with hint := phiHint s2.heap (s2.heap cur).hint (s2.heap cur).phiHints }) cur

/-- The loop of `allocate_walk` (allocate.c:334-402); `none` also when the fuel runs out. -/
def walk (cfg : Cfg) : Nat → St → Option St
  | 0, _ => none
  | n + 1, s =>
    match s.unhandled with
    | [] => some s
    | cur :: rest =>
      match round cfg { s with unhandled := rest } cur with
      | none => none
      | some s1 => walk cfg n s1

/-! ### the start and the result -/

/-- A variable of the function as `interval_build` leaves it.  `preset` is the register of a
variable with `must_hint` (the arguments of calls), 0 for the others.  Hints are interval numbers. -/
structure Var where
  ranges : List Range
  uses : List Use
  size : Int
  cls : Cls
  preset : Nat
  hint : Option Nat
  phiHints : List Nat
  constFloat : Bool
deriving Repr, DecidableEq

/-- What register allocation starts from. -/
structure Func where
  cfg : Cfg
  /-- the ranges of the physical registers -/
  fixed : Nat → List Range
  vars : List Var
  /-- the frame size so far -/
  stackOffset : Int

/-- The interval of a physical register (interval.c:569-579). -/
def fixedIv (F : Func) (r : Nat) : Iv :=
  { index := r, ranges := F.fixed r, uses := [], parent := none, children := [], size := 0,
    spilled := false, hint := none, phiHints := [], assigned := r, cls := F.cfg.cls r, fixed := true,
    constFloat := false }

/-- The interval of a variable (interval.c:582-606).  `interval_count` starts at
`alloc_reg_count() + 1` (src/lir.c:50) and the registers have used it up to twice that number. -/
def varIv (F : Func) (k : Nat) (v : Var) : Iv :=
  { index := 2 * F.cfg.nregs + k, ranges := v.ranges, uses := v.uses, parent := none, children := [],
    size := v.size, spilled := false, hint := v.hint, phiHints := v.phiHints, assigned := v.preset,
    cls := v.cls, fixed := false, constFloat := v.constFloat }

/-- All intervals at the start. -/
def heap0 (F : Func) (j : Nat) : Iv :=
  if j < F.cfg.nregs then fixedIv F j
  else match F.vars[j - F.cfg.nregs]? with
    | some v => varIv F (j - F.cfg.nregs) v
    | none => fixedIv F 0

/-- The intervals of the variables. -/
def varIds (F : Func) : List Nat := List.range' F.cfg.nregs F.vars.length

/-- `unhandled_new` and `inactive_new` (allocate.c:9-54). -/
def start (F : Func) : St :=
  { heap := heap0 F, next := F.cfg.nregs + F.vars.length,
    count := 2 * F.cfg.nregs + F.vars.length,
    unhandled := (varIds F).foldl (fun l d => sortTo (heap0 F) d l) [],
    handled := [], active := [],
    inactive := (regIds F.cfg.nregs).filter fun r => F.fixed r ≠ [],
    slots := fun _ => 0, stackOffset := F.stackOffset, moves := [] }

/-- `allocate_walk` (allocate.c:334-402) on a function; a variable without a range is a null pointer
dereference in `sort_to_unhandled`. -/
def run (F : Func) (fuel : Nat) : Option St :=
  if F.vars.all (fun v => v.ranges ≠ []) then walk F.cfg fuel (start F) else none

/-- First interval of a list that is live at a position. -/
def findCovered (heap : Nat → Iv) (p : Int) (isInput : Bool) : List Nat → Option Nat
  | [] => none
  | c :: cs => if Ranges.covered (heap c).ranges p isInput then some c else findCovered heap p isInput cs

/-- `_interval_child_at` (interval.c:9-34). -/
def childAt (s : St) (i : Nat) (p : Int) (isInput : Bool) : Option Nat :=
  if (s.heap i).children = [] then some i
  else if Ranges.covered (s.heap i).ranges p isInput then some i
  else findCovered s.heap p isInput (s.heap i).children

/-- Where a value is kept. -/
inductive Home where
  | reg (r : Nat)
  /-- the bytes `off`, …, `off + size - 1` of the frame -/
  | stack (off size : Int)
  /-- a constant that is computed again at every use -/
  | again
deriving Repr, DecidableEq

/-- `var_replace` and the test for constants of `replace_virtual_register` (allocate.c:60-92,
interval.c:1948-1965). -/
def homeOf (s : St) (i : Nat) : Home :=
  let root := (s.heap i).parent.getD i
  if (s.heap i).spilled then
    if (s.heap root).constFloat then .again else .stack (s.slots root) (s.heap i).size
  else .reg (s.heap i).assigned

/-- Where `replace_virtual_register` puts the operand of an operation with id `p` that reads
(`isInput`) or writes variable `k` (interval.c:1938-1947). -/
def place (F : Func) (s : St) (k : Nat) (p : Int) (isInput : Bool) : Option Home :=
  (childAt s (F.cfg.nregs + k) p isInput).map (homeOf s)

end Nature.Alloc
