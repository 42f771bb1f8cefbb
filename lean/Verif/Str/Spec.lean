import Verif.Str.Model
/-! Specification: the lexicographic order on byte strings. -/
namespace Nature.Str

/-- `a` comes before `b`: at the first difference `a` has the smaller byte, or `a` is a proper prefix of `b`. -/
def Before (a b : List Byte) : Prop :=
  (∃ p x y r s, a = p ++ x :: r ∧ b = p ++ y :: s ∧ x.toNat < y.toNat) ∨ (∃ y s, b = a ++ y :: s)

/-- Convert byte vectors to strings one after the other, returning what the program sees. -/
def convertAll (p : Pool) : List (List Byte × List Byte) → Res (List (List Byte))
  | [] => .ok []
  | (raw, beyond) :: rest =>
    (newWithPool p raw beyond).bind fun r => (convertAll r.2 rest).bind fun l => .ok (r.1.bytes :: l)

end Nature.Str
