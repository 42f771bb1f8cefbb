import Verif.ArenaBits.Model
import Verif.Bitmap.Spec
/-! Specification vocabulary for the heap's pointer bitmap. -/
namespace Nature.ArenaBits
open Nature.Bitmap (Bytes)

/-- The address range `[lo, hi)` lies in arenas that exist and have full bit arrays, in 48-bit memory. -/
def Mapped (h : Heap) (lo hi : Nat) : Prop :=
  h.off ≤ lo ∧ h.off % 8 = 0 ∧
  ∀ a, lo ≤ a → a < hi → ∃ b, h.arenas (arenaIndex h a) = some b ∧ b.length = arenaBitsCount

/-- `h'` records `f w` as the kind of every word `w` of `[lo, hi)`, and exactly what `h` records for every
other word of the heap. -/
def Recorded (h h' : Heap) (lo hi : Nat) (f : Nat → Bool) : Prop :=
  ∀ w, h.off ≤ w → w % 8 = 0 →
    readKind h' w = if lo ≤ w ∧ w < hi then some (f w) else readKind h w

/-- Word `i` of a type: does it hold a pointer, according to the type's own bitmap? -/
def typeWord (t : RType) (i : Nat) : Option Bool := Bitmap.bit t.gcBits i

end Nature.ArenaBits
