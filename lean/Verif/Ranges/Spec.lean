import Verif.Ranges.Model
/-
What live ranges mean, independent of the algorithms.
-/
namespace Nature.Ranges

/-- Position `p` lies in one of the ranges; the end of a range does not belong to it. -/
def Covers (rs : List Range) (p : Int) : Prop := ∃ r ∈ rs, r.lo ≤ p ∧ p < r.hi

/-- Position `p` of an input operand lies in one of the ranges: an operand read at the very end of
a range still belongs to it. -/
def CoversInput (rs : List Range) (p : Int) : Prop := ∃ r ∈ rs, r.lo ≤ p ∧ p ≤ r.hi

/-- Ranges in increasing order with a gap between neighbours. -/
def Sorted : List Range → Prop
  | [] => True
  | [r] => r.lo ≤ r.hi
  | r :: s :: rs => r.lo ≤ r.hi ∧ r.hi < s.lo ∧ Sorted (s :: rs)

/-- No range is empty. -/
def NonEmpty (rs : List Range) : Prop := ∀ r ∈ rs, r.lo < r.hi

/-- What building the intervals records for a variable. -/
inductive Op where
  /-- the variable is live on `[f, t)` -/
  | range (f t : Int)
  /-- the variable is defined at `d`: it is not live before -/
  | define (d : Int)
deriving Repr, DecidableEq

/-- The positions a history makes live, newest operation first. -/
def live : List Op → Int → Prop
  | [], _ => False
  | .range f t :: h, p => (f ≤ p ∧ p < t) ∨ live h p
  | .define d :: h, p => p = d ∨ (d ≤ p ∧ live h p)

/-- Where the newest operation starts. -/
def start : List Op → Option Int
  | [] => none
  | .range f _ :: _ => some f
  | .define d :: _ => some d

/-- Operations are recorded from the end of the function to its beginning: every range starts no
later than the operation recorded before it, and a definition either comes no later than the
operation recorded before it or lies in the stretch of live positions that begins there. -/
def Backward : List Op → Prop
  | [] => True
  | .range f t :: h => f ≤ t ∧ (∀ l, start h = some l → f ≤ l) ∧ Backward h
  | .define d :: h =>
    (∀ l, start h = some l → d ≤ l ∨ ∀ q, l ≤ q → q ≤ d → live h q) ∧ Backward h

/-- Running a history through the code, newest operation first. -/
def build : List Op → Option (List Range)
  | [] => some []
  | .range f t :: h => (build h).bind fun rs => addRange rs f t
  | .define d :: h => (build h).bind fun rs => define rs d

/-- `p` is the least position with `P`. -/
def Least (P : Int → Prop) (p : Int) : Prop := P p ∧ ∀ q, P q → p ≤ q

/-- Block labels and block ends increase along the function. -/
def Ordered : List Block → Prop
  | [] => True
  | [_] => True
  | a :: b :: bs => a.last < b.label ∧ a.label < b.label ∧ Ordered (b :: bs)

end Nature.Ranges
