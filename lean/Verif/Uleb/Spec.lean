import Verif.Uleb.Model
/-! What a ULEB128 field is. -/
namespace Nature.Uleb
open Nature

/-- The value of a ULEB128 byte string: seven bits per byte, least significant first. -/
def ulebVal : List Byte → Nat
  | [] => 0
  | b :: r => b.toNat % 128 + 128 * ulebVal r

/-- A complete encoding: continuation bit on every byte except the last. -/
def IsField (f : List Byte) : Prop :=
  ∃ init last, f = init ++ [last] ∧ (∀ b ∈ init, 128 ≤ b.toNat) ∧ last.toNat < 128

/-- The first `w` of the `n` bytes at `place` are an encoding of a 64-bit value. -/
def HasField (place : List Byte) (n w : Nat) : Prop :=
  w ≤ n ∧ w ≤ place.length ∧ w ≤ 10 ∧ IsField (place.take w) ∧ ulebVal (place.take w) < 2 ^ 64

/-- The range of a field of `w` bytes. -/
def range (w : Nat) : Nat := 2 ^ min (7 * w) 64

/-- `x` is a 64-bit unsigned value. -/
def Fits (x : Int) : Prop := 0 ≤ x ∧ x < 2 ^ 64

/-- `place'` is `place` with the field of width `w` replaced by an encoding, of the
same width, of `v` modulo the field's range. -/
def Patched (place place' : List Byte) (w : Nat) (v : Int) : Prop :=
  place'.length = place.length ∧ place'.drop w = place.drop w ∧ IsField (place'.take w) ∧
  (ulebVal (place'.take w) : Int) = v % (range w : Nat)

end Nature.Uleb
