/-
What is expected of an arena, said without reference to std/allocator/arena.n.

An arena hands out regions of memory that it gets from the heap.  The regions that are in use must
not overlap, must lie in memory that the heap has given, and everything must be given back.
-/
namespace Nature.Arena

/-- The bytes from `start` up to, not including, `start + len`. -/
structure Region where
  start : Nat
  len : Nat
deriving DecidableEq, Repr

/-- No byte in common. -/
def Region.apart (a b : Region) : Prop := a.start + a.len ≤ b.start ∨ b.start + b.len ≤ a.start

/-- Every byte of `a` is in `b`. -/
def Region.within (a b : Region) : Prop := b.start ≤ a.start ∧ a.start + a.len ≤ b.start + b.len

/-- What `malloc` promises about a region it gives while the regions `held` are in use: it is not
at null, aligned to 8 bytes, overlaps nothing, and is in the address space, of which programs see
much less than 2^62 bytes. -/
structure Given (held : List Region) (r : Region) : Prop where
  notNull : 0 < r.start
  aligned : r.start % 8 = 0
  space : r.start + r.len ≤ 2 ^ 62
  fresh : ∀ h ∈ held, r.apart h

/-- The regions handed out are sound: aligned, apart from each other, and each inside a region that
the heap has given. -/
structure Sound (held live : List Region) : Prop where
  apart : live.Pairwise Region.apart
  aligned : ∀ r ∈ live, r.start % 8 = 0
  given : ∀ r ∈ live, ∃ h ∈ held, r.within h

end Nature.Arena
