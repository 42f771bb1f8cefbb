import Verif.Bitmap.Model
/-! Specification vocabulary for the bitmap: a buffer of bytes seen as a sequence of bits. -/
namespace Nature.Bitmap

/-- Abstract view: the `i`-th bit of a buffer, `none` outside it. -/
def bit (bits : Bytes) (i : Nat) : Option Bool :=
  (bits[i / 8]?).map (·.getLsbD (i % 8))

end Nature.Bitmap
