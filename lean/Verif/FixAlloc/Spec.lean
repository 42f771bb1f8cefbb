import Verif.FixAlloc.Model
/-! Specification vocabulary for the fixed-size allocator: histories of a client and an operating system. -/
namespace Nature.FixAlloc

/-- What a client of the allocator can do.  `alloc os` carries the address the OS would hand out if asked. -/
inductive Op
  | alloc (os : Nat)
  | free (p : Nat)
  | write (a : Nat) (v : BitVec 8)

/-- A history so far: the allocator and memory, the blocks the client holds, and the blocks it has returned and
not been given again (latest first).  The two lists are bookkeeping of the *calls made*; the allocator does not
see them. -/
structure St where
  w : World
  live : List Nat
  freed : List Nat

/-- `[a, a + n)` and `[b, b + n)` have no byte in common. -/
def Disj (n a b : Nat) : Prop := a + n ≤ b ∨ b + n ≤ a

instance (n a b : Nat) : Decidable (Disj n a b) := inferInstanceAs (Decidable (_ ∨ _))

/-- The contract of the OS for a region of `n` bytes at `os`: a non-null address range of the 64-bit address
space that overlaps no region handed out before. -/
def OsOk (n : Nat) (regions : List Nat) (os : Nat) : Prop :=
  os ≠ 0 ∧ os + n ≤ 2 ^ 64 ∧ ∀ r ∈ regions, Disj n os r

instance (n : Nat) (regions : List Nat) (os : Nat) : Decidable (OsOk n regions os) :=
  inferInstanceAs (Decidable (_ ∧ _ ∧ _))

/-- One step of a history; `none` = not a step a well-behaved client and OS can make (freeing a block that is
not held, writing outside the held blocks, the OS returning memory that is in use). -/
def step (s : St) : Op → Option St
  | .alloc os =>
    if OsOk s.w.fa.chunkSize s.w.regions os then
      let r := alloc s.w os
      some ⟨r.2, r.1 :: s.live, s.freed.tail⟩
    else none
  | .free p =>
    if p ∈ s.live then some ⟨free s.w p, s.live.erase p, p :: s.freed⟩ else none
  | .write a v =>
    if ∃ b ∈ s.live, b ≤ a ∧ a < b + s.w.fa.size then
      some ⟨{ s.w with mem := fun x => if x = a then v else s.w.mem x }, s.live, s.freed⟩
    else none

/-- A whole history. -/
def run : St → List Op → Option St
  | s, [] => some s
  | s, op :: ops => (step s op).bind (run · ops)

/-- The size of the blocks handed out for a requested size. -/
def blockSize (fixSize : Nat) : Nat := max fixSize 8

/-- The block at `b` lies in memory obtained from the OS: inside one of the regions. -/
def InOs (s : St) (b : Nat) : Prop :=
  ∃ r ∈ s.w.regions, r ≤ b ∧ b + s.w.fa.size ≤ r + s.w.fa.chunkSize

end Nature.FixAlloc
