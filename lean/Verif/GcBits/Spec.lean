import Verif.GcBits.Model
/-! Specification vocabulary for the bit storage. -/
namespace Nature.GcBits

/-- The two blocks share no byte. -/
def Disjoint (b c : Block) : Prop := b.arena ≠ c.arena ∨ b.start + b.len ≤ c.start ∨ c.start + c.len ≤ b.start

end Nature.GcBits
