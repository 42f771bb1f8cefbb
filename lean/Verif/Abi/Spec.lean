import Verif.Abi.MachLemmas
/-
What passing arguments has to achieve, whatever the convention.
-/
namespace Nature.Abi

/-- The addresses from `lo` up to `hi`. -/
def Range (lo hi a : Int) : Prop := lo ≤ a ∧ a < hi

/-- Before the call: an argument that is an object is a variable holding its address, and no byte of it lies in `used`, the
part of the stack used by the call. -/
structure Sent (ts : List Ty) (adr : Nat → Int) (used : Int → Prop) (s0 : State) : Prop where
  object : ∀ (i : Nat) (t : Ty), ts[i]? = some t → t.ind = true → PtrAt s0 (.var (.actual i)) (adr i) ∧
    ∀ k : Nat, k < sizeOf t → ¬ used (adr i + k)

/-- When the body of the called function starts: a scalar parameter has the bytes of the argument; a parameter that is an object
holds the address of bytes that equal those of the argument (the bytes `P` speaks of), and that are its own, apart from
everything the caller has and from the other parameters; and memory outside the part of the stack used by the call is as it was. -/
structure Received (P : Ty → Nat → Prop) (ts : List Ty) (adr : Nat → Int) (used : Int → Prop) (s0 s2 : State) : Prop where
  scalar : ∀ (i : Nat) (s : Scal), ts[i]? = some (.scal s) → ∀ k, k < s.size → s2 (.var (.formal i) k) = s0 (.var (.actual i) k)
  object : ∃ home : Nat → Int,
    (∀ (i : Nat) (t : Ty), ts[i]? = some t → t.ind = true → PtrAt s2 (.var (.formal i)) (home i) ∧
      ∀ k : Nat, P t k → s2 (.mem (home i + k)) = s0 (.mem (adr i + k)) ∧ used (home i + k)) ∧
    (∀ (i j : Nat) (t u : Ty), ts[i]? = some t → ts[j]? = some u → t.ind = true → u.ind = true → i ≠ j →
      ∀ k l : Nat, P t k → P u l → home i + k ≠ home j + l)
  others : ∀ a, ¬ used a → s2 (.mem a) = s0 (.mem a)

/-- The storage the caller makes for a result of type `t` (src/lir.h:900-935 `lir_stack_alloc`: what it takes, rounded up). -/
def room (t : Ty) : Nat := Nature.TypeLayout.alignUp (if sizeOf t = 0 then 1 else sizeOf t) 8

/-- At a return: a result that is an object is a variable holding its address `r`, the caller's storage for it is at `b`, the
variables `vs` hold this address (the called function's `big` if the address was passed, the caller's `res` if the storage was
made before the call), and the two do not overlap. -/
structure Returning (t : Ty) (vs : List V) (r b : Int) (s3 : State) : Prop where
  object : t.ind = true → PtrAt s3 (.var .ret) r ∧ (∀ v ∈ vs, PtrAt s3 (.var v) b) ∧
    (r + sizeOf t ≤ b ∨ b + room t ≤ r)

/-- After the call: a scalar result has the bytes returned; a result that is an object is the caller's storage, with the bytes
returned; and nothing else in memory has changed. -/
structure Returned (P : Ty → Nat → Prop) (t : Ty) (r b : Int) (s3 s5 : State) : Prop where
  scalar : ∀ s : Scal, t = .scal s → ∀ k, k < s.size → s5 (.var .res k) = s3 (.var .ret k)
  object : t.ind = true → PtrAt s5 (.var .res) b ∧ ∀ k : Nat, P t k → s5 (.mem (b + k)) = s3 (.mem (r + k))
  others : ∀ a : Int, (t.ind = true → a < b ∨ b + room t ≤ a) → s5 (.mem a) = s3 (.mem a)

/-- Every byte. -/
def allBytes (t : Ty) (k : Nat) : Prop := k < sizeOf t

mutual
/-- The bytes of a value that belong to a scalar in it: all but the padding. -/
def fieldByte : Ty → Nat → Prop
  | .scal s, k => k < s.size
  | .agg es, k => fieldBytes es 0 k
  | .arr n e, k => ∃ j, j < n ∧ j * sizeOf e ≤ k ∧ fieldByte e (k - j * sizeOf e)
def fieldBytes : Tys → Nat → Nat → Prop
  | .nil, _, _ => False
  | .cons t rest, off, k =>
    (Nature.TypeLayout.alignUp off (alignOf t) ≤ k ∧ fieldByte t (k - Nature.TypeLayout.alignUp off (alignOf t))) ∨
    fieldBytes rest (Nature.TypeLayout.alignUp off (alignOf t) + sizeOf t) k
end

end Nature.Abi
