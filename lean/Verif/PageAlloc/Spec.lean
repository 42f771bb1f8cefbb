import Verif.PageAlloc.Model
/-!
Specification vocabulary for the page allocator: runs of free pages, independent of summaries and bitmaps.
Pages are numbered from 0 (the page at the heap base); `free p` says page `p` is free.
-/
namespace Nature.PageAlloc

/-- All pages of `[a, a+k)` are free. -/
def AllFree (free : Nat → Bool) (a k : Nat) : Prop := ∀ i, a ≤ i → i < a + k → free i = true

/-- Some `k` consecutive free pages lie inside `[lo, hi)`. -/
def HasRun (free : Nat → Bool) (lo hi k : Nat) : Prop := ∃ a, lo ≤ a ∧ a + k ≤ hi ∧ AllFree free a k

/-- `s` is the number of leading free pages of `[lo, hi)`. -/
def LeadIs (free : Nat → Bool) (lo hi s : Nat) : Prop :=
  lo + s ≤ hi ∧ AllFree free lo s ∧ (lo + s < hi → free (lo + s) = false)

/-- `t` is the number of trailing free pages of `[lo, hi)`. -/
def TailIs (free : Nat → Bool) (lo hi t : Nat) : Prop :=
  lo + t ≤ hi ∧ AllFree free (hi - t) t ∧ (lo + t < hi → free (hi - t - 1) = false)

/-- `m` is the length of the longest run of free pages inside `[lo, hi)`. -/
def MaxIs (free : Nat → Bool) (lo hi m : Nat) : Prop :=
  HasRun free lo hi m ∧ ∀ k, HasRun free lo hi k → k ≤ m

/-- The summary `s` describes `[lo, hi)` exactly. -/
structure Exact (free : Nat → Bool) (lo hi : Nat) (s : Summary) : Prop where
  lead : LeadIs free lo hi s.start
  tail : TailIs free lo hi s.tail
  max : MaxIs free lo hi s.max

/-- Page `i` of a chunk is in use (bit set); pages outside the chunk count as in use. -/
def used (c : Chunk) (i : Nat) : Bool :=
  match c[i / 64]? with
  | some w => w.getLsbD (i % 64)
  | none => true

end Nature.PageAlloc
