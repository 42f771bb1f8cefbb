import Verif.Arena.Spec
/-
std/allocator/arena.n, function by function.

Integers and addresses are 64 bits.  The heap is the list of regions that `malloc` has given and
`free` has not taken back; what `malloc` answers is a parameter.  After `free` a block header has
arbitrary contents.  A `free` of something that was not given, and a loop over the blocks that goes
round in circles, end in none.  Only the headers of blocks are memory in the model: the arena
writes nowhere else, except in the copy of `arena_t.new`, which is not modelled.
-/
namespace Nature.Arena

abbrev W := BitVec 64

/-- `block_t`.  arena.n:7-11. -/
structure Hdr where
  next : W
  capacity : W
  used : W

/-- `arena_t`, arena.n:13-19, with the block headers in memory and the heap. -/
structure St where
  self : W
  head : W
  current : W
  blockSize : W
  last : W
  lastSize : W
  mem : W → Hdr
  held : List Region

/-- One header changed. -/
def set (m : W → Hdr) (a : W) (h : Hdr) : W → Hdr := fun x => if x = a then h else m x

/-- `ALIGN`.  arena.n:4. -/
def ALIGN : W := 8

/-- `@sizeof(block_t)`: a pointer and two integers. -/
def sizeofBlock : W := 24

/-- `@sizeof(arena_t)`: three pointers and two integers. -/
def sizeofArena : W := 40

/-- `align_up`.  arena.n:22-24. -/
def alignUp (offset : W) : W := (offset + ALIGN - 1) &&& ~~~(ALIGN - 1)

/-- `block_new`.  arena.n:27-39.  `a` is what `malloc` answers, 0 for no memory. -/
def blockNew (mem : W → Hdr) (held : List Region) (capacity a : W) :
    Option ((W → Hdr) × List Region) :=
  let total := sizeofBlock + capacity
  if a = 0 then none
  else some (set mem a { next := 0, capacity := capacity, used := 0 }, ⟨a.toNat, total.toNat⟩ :: held)

/-- `block_data`.  arena.n:42-45. -/
def blockData (b : W) : W := b + sizeofBlock

/-- `block_alloc`.  arena.n:48-59: the address, 0 on failure. -/
def blockAlloc (mem : W → Hdr) (b size : W) : W × (W → Hdr) :=
  let h := mem b
  let alignedUsed := alignUp h.used
  if h.capacity.slt (alignedUsed + size) then (0, mem)
  else (blockData b + alignedUsed, set mem b { h with used := alignedUsed + size })

/-- `init`.  arena.n:61-82.  `a1` and `a2` are what `malloc` answers. -/
def init (mem : W → Hdr) (held : List Region) (capacity a1 a2 : W) : Option St :=
  if a1 = 0 then none
  else
    let held := ⟨a1.toNat, sizeofArena.toNat⟩ :: held
    let blockSize := if capacity.sle 0 then 4096 else capacity
    match blockNew mem held blockSize a2 with
    | none => none
    | some (mem, held) =>
      some { self := a1, head := a2, current := a2, blockSize := blockSize, last := 0, lastSize := 0,
             mem := mem, held := held }

/-- `arena_t.alloc`.  arena.n:98-131: none where it panics. -/
def alloc (s : St) (size a : W) : Option (W × St) :=
  if size.sle 0 then none
  else
    match blockAlloc s.mem s.current size with
    | (p, mem) =>
      if p ≠ 0 then some (p, { s with mem := mem, last := p, lastSize := size })
      else
        let newCap := if s.blockSize.slt size then size else s.blockSize
        match blockNew mem s.held newCap a with
        | none => none
        | some (mem, held) =>
          let mem := set mem s.current { mem s.current with next := a }
          match blockAlloc mem a size with
          | (p, mem) =>
            if p = 0 then none
            else some (p, { s with current := a, mem := mem, held := held, last := p,
                                   lastSize := size })

/-- `arena_t.dealloc`.  arena.n:135-144. -/
def dealloc (s : St) (p : W) : St :=
  if p = s.last then
    { s with
      mem := set s.mem s.current { s.mem s.current with used := (s.mem s.current).used - s.lastSize }
      last := 0
      lastSize := 0 }
  else s

/-- `free`: none if the heap has not given this.  `junk` is what is there afterwards. -/
def free (junk : W → Hdr) (mem : W → Hdr) (held : List Region) (a : W) :
    Option ((W → Hdr) × List Region) :=
  if held.any (fun r => r.start == a.toNat) then
    some (set mem a (junk a), held.filter (fun r => r.start != a.toNat))
  else none

/-- The loops over the blocks.  arena.n:86-91, 166-171: none if there are more than `n`. -/
def freeAll (junk : W → Hdr) : Nat → (W → Hdr) → List Region → W → Option ((W → Hdr) × List Region)
  | 0, mem, held, b => if b = 0 then some (mem, held) else none
  | n + 1, mem, held, b =>
    if b = 0 then some (mem, held)
    else
      let next := (mem b).next
      match free junk mem held b with
      | none => none
      | some (mem, held) => freeAll junk n mem held next

/-- `arena_t.deinit`.  arena.n:84-95: the heap afterwards.  There cannot be more blocks than the heap
has given regions. -/
def deinit (junk : W → Hdr) (s : St) : Option (List Region) :=
  match freeAll junk s.held.length s.mem s.held s.head with
  | none => none
  | some (mem, held) =>
    match free junk mem held s.self with
    | none => none
    | some (_, held) => some held

/-- `arena_t.reset`.  arena.n:164-182. -/
def reset (junk : W → Hdr) (s : St) : Option St :=
  match freeAll junk s.held.length s.mem s.held (s.mem s.head).next with
  | none => none
  | some (mem, held) =>
    some { s with mem := set mem s.head { mem s.head with next := 0, used := 0 }
                  held := held, current := s.head, last := 0, lastSize := 0 }

end Nature.Arena
