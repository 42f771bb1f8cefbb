/-
Model of the runtime's fixed-size allocator: /repo/runtime/fixalloc.c, /repo/runtime/fixalloc.h.

Memory is byte addressed; the links of the free list and of the chunk list live in the first eight bytes of the
blocks and chunks themselves, as in C, so that a client write to the wrong place would corrupt them.
`uint32_t` arithmetic on `chunk_rem` wraps.  Addresses and `uintptr_t` sizes are natural numbers; the
addresses that occur are those of mapped memory, below 2^64.
-/
namespace Nature.FixAlloc

/-- Byte addressed memory. -/
abbrev Mem := Nat → BitVec 8

/-- `((fixalloc_link_t *) a)->next`: an eight byte little-endian load. -/
def load64 (m : Mem) (a : Nat) : Nat :=
  (m a).toNat + 256 * ((m (a + 1)).toNat + 256 * ((m (a + 2)).toNat + 256 * ((m (a + 3)).toNat +
    256 * ((m (a + 4)).toNat + 256 * ((m (a + 5)).toNat + 256 * ((m (a + 6)).toNat + 256 * (m (a + 7)).toNat))))))

/-- `((fixalloc_link_t *) a)->next = v`. -/
def store64 (m : Mem) (a v : Nat) : Mem := fun x =>
  if a ≤ x ∧ x < a + 8 then BitVec.ofNat 8 (v / 256 ^ (x - a)) else m x

/-- `memset((void *) a, 0, n)`; also the zeroed pages of a fresh `mmap`. -/
def zero (m : Mem) (a n : Nat) : Mem := fun x => if a ≤ x ∧ x < a + n then 0#8 else m x

/-- runtime/fixalloc.h:9 `FIXALLOC_CHUNK_LIMIT`. -/
abbrev chunkLimit : Nat := 16384

/-- runtime/fixalloc.h:15-23 `fixalloc_t`. -/
structure FA where
  size : Nat
  freeList : Nat
  chunkPtr : Nat
  chunkRem : Nat
  chunkSize : Nat
  inuse : Nat
  chunkList : Nat

/-- The allocator together with memory and the regions the OS has given it: `regions` lists the addresses
returned by `sys_memory_alloc` (utils/helper.h:749-760), newest first, each of `chunkSize` bytes. -/
structure World where
  fa : FA
  mem : Mem
  regions : List Nat

/-- runtime/fixalloc.c:9-24 `fixalloc_init`; `none` = the assertion on the size failed. -/
def init (fixSize : Nat) (m : Mem) : Option World :=
  if fixSize ≤ chunkLimit then
    let size := if fixSize < 8 then 8 else fixSize
    some ⟨⟨size, 0, 0, 0, (chunkLimit / size * size) % 2 ^ 32, 0, 0⟩, m, []⟩
  else none

/-- runtime/fixalloc.c:40-54: take a new chunk when the current one is too small; `os` is the address
`sys_memory_alloc` returns. -/
def refill (w : World) (os : Nat) : World :=
  if w.fa.chunkRem < w.fa.size then
    let m1 := zero w.mem os w.fa.chunkSize
    let m2 := if w.fa.chunkList = 0 then m1 else store64 m1 os w.fa.chunkList
    ⟨{ w.fa with chunkList := os, chunkPtr := os + 8, chunkRem := (w.fa.chunkSize + 2 ^ 32 - 8) % 2 ^ 32 }, m2,
      os :: w.regions⟩
  else w

/-- runtime/fixalloc.c:56-63: cut the next block off the chunk; `chunk_rem -= size` wraps as `uint32_t`. -/
def carve (w : World) : Nat × World :=
  (w.fa.chunkPtr,
    ⟨{ w.fa with
        chunkPtr := w.fa.chunkPtr + w.fa.size
        chunkRem := (w.fa.chunkRem + 2 ^ 32 - w.fa.size) % 2 ^ 32
        inuse := w.fa.inuse + w.fa.size }, zero w.mem w.fa.chunkPtr w.fa.size, w.regions⟩)

/-- runtime/fixalloc.c:26-64 `fixalloc_alloc`; `os` is the address the OS would return if asked for a chunk. -/
def alloc (w : World) (os : Nat) : Nat × World :=
  if w.fa.freeList ≠ 0 then
    let v := w.fa.freeList
    (v, ⟨{ w.fa with freeList := load64 w.mem v, inuse := w.fa.inuse + w.fa.size }, zero w.mem v w.fa.size, w.regions⟩)
  else carve (refill w os)

/-- runtime/fixalloc.c:66-74 `fixalloc_free`. -/
def free (w : World) (p : Nat) : World :=
  ⟨{ w.fa with inuse := w.fa.inuse - w.fa.size, freeList := p }, store64 w.mem p w.fa.freeList, w.regions⟩

/-- runtime/fixalloc.c:76-83 `fixalloc_destroy`: the addresses handed to `sys_memory_unmap`, in order.  `fuel`
bounds the loop; `none` = it was not enough. -/
def destroy (m : Mem) : Nat → Nat → Option (List Nat)
  | 0, _ => none
  | fuel + 1, chunk => if chunk = 0 then some [] else (destroy m fuel (load64 m chunk)).map (chunk :: ·)

end Nature.FixAlloc
