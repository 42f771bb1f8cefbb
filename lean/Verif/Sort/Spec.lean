import Verif.Sort.Model
/-! What sorting means, independent of the algorithm. -/
namespace Nature.Sort

/-- A strict weak order: the contract of a comparison callback. -/
structure WeakOrder {α : Type} (lt : α → α → Bool) : Prop where
  irrefl : ∀ a, lt a a = false
  trans : ∀ a b c, lt a b = true → lt b c = true → lt a c = true
  negTrans : ∀ a b c, lt a b = false → lt b c = false → lt a c = false

/-- No element is followed by one that compares less than it. -/
def Ordered {α : Type} (lt : α → α → Bool) (l : List α) : Prop :=
  l.Pairwise fun x y => lt y x = false

end Nature.Sort
