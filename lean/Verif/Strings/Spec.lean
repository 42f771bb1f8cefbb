import Verif.Strings.Model
/-! Specifications of the string functions. -/
namespace Nature.Strings

/-- `sub` occurs in `s` at index `i`. -/
def OccursAt (s sub : Str) (i : Nat) : Prop := ∃ p r, s = p ++ sub ++ r ∧ p.length = i

/-- `r` is the first index at or after `a` where `sub` occurs, or -1. -/
def FirstFrom (s sub : Str) (a : Nat) (r : Int) : Prop :=
  (∃ i : Nat, r = i ∧ a ≤ i ∧ OccursAt s sub i ∧ ∀ j, a ≤ j → j < i → ¬ OccursAt s sub j) ∨
  (r = -1 ∧ ∀ j, a ≤ j → ¬ OccursAt s sub j)

/-- `r` is the last index where `sub` occurs, or -1. -/
def LastOcc (s sub : Str) (r : Int) : Prop :=
  (∃ i : Nat, r = i ∧ OccursAt s sub i ∧ ∀ j, i < j → ¬ OccursAt s sub j) ∨ (r = -1 ∧ ∀ j, ¬ OccursAt s sub j)

/-- The pieces glued with the separator between them. -/
def glue (sep : Str) : List Str → Str
  | [] => []
  | [p] => p
  | p :: q :: ps => p ++ sep ++ glue sep (q :: ps)

/-- `r` is `s` with every occurrence of `old`, taken from the left without overlap, replaced by `new`. -/
inductive Replaced (old new : Str) : Str → Str → Prop
  | none (s : Str) : (∀ j, ¬ OccursAt s old j) → Replaced old new s s
  | step (p q q' : Str) : (∀ j, j < p.length → ¬ OccursAt (p ++ old ++ q) old j) → Replaced old new q q' →
      Replaced old new (p ++ old ++ q) (p ++ new ++ q')

/-- Decimal value of a list of digit characters. -/
def decVal (ds : Str) : Nat := ds.foldl (fun n d => 10 * n + (d.toNat - 48)) 0

/-- `s` is an optional minus sign, spaces, then one or more digits, and denotes `v`. -/
def Denotes (s : Str) (v : Int) : Prop :=
  ∃ (neg : Bool) (k : Nat) (ds : Str), s = (if neg = true then [45#8] else []) ++ List.replicate k 32#8 ++ ds ∧ ds ≠ [] ∧
    (∀ d ∈ ds, 48 ≤ d.toNat ∧ d.toNat ≤ 57) ∧ v = (if neg = true then -(decVal ds : Int) else decVal ds)

end Nature.Strings
