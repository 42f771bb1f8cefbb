import Verif.Path.Model
/-! What a path denotes. -/
namespace Nature.Path
open Nature Nature.Strings

/-- The pieces between the separators. -/
def pieces : Str → List Str
  | [] => [[]]
  | c :: r =>
    if c = 47#8 then [] :: pieces r
    else
      match pieces r with
      | p :: ps => (c :: p) :: ps
      | [] => [[c]]

/-- The components a path names: pieces other than the empty one and `.`. -/
def comps (p : Str) : List Str := (pieces p).filter fun x => decide (x ≠ [] ∧ x ≠ [46#8])

/-- Does the path start at the root? -/
def isAbs (p : Str) : Bool := decide (p.head? = some 47#8)

/-- Two paths name the same thing: same start, same components. -/
def Equiv (p q : Str) : Prop := isAbs p = isAbs q ∧ comps p = comps q

end Nature.Path
