import Verif.IntCodec.Model
/-! What a fixed-width serialisation is. -/
namespace Nature.IntCodec
open Nature

/-- The `n` base-256 digits of `v`, least significant first. -/
def leDigits (n v : Nat) : List Nat := (List.range n).map fun k => v / 256 ^ k % 256
/-- The `n` base-256 digits of `v`, most significant first. -/
def beDigits (n v : Nat) : List Nat := (leDigits n v).reverse

/-- `write` and `read` are inverse to each other, `write` produces the digits of the
value (of its two's complement pattern, for signed types), `read` ignores what
follows, and throws when there are fewer than `n` bytes. -/
structure Codec (w n : Nat) (digits : Nat → Nat → List Nat)
    (write : BitVec w → List Byte) (read : List Byte → Res (BitVec w)) : Prop where
  bytes : ∀ x, (write x).map BitVec.toNat = digits n x.toNat
  round_trip : ∀ x rest, read (write x ++ rest) = .ok x
  back : ∀ bs, n ≤ bs.length → ∃ x, read bs = .ok x ∧ write x = bs.take n
  short : ∀ bs, bs.length < n → read bs = .throws

end Nature.IntCodec
