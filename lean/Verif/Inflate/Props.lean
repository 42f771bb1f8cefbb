import Verif.Inflate.Stream

/-!
# C103: decompressing a debug section gives the data of the zlib stream

The standard is in `Verif.Inflate.Spec`; it shares nothing with the model.
-/

namespace Nature.Inflate

/-- Decompression gives a result exactly when the input is one zlib stream, without a dictionary, with nothing behind it, whose data has
the size that the section says, and then the result is that data; in all other cases an error is reported. -/
theorem C103_exact (input : List Byte) (size : Nat) (out : List Byte) :
    decompress input size = .ok out ↔ Spec.Stream input out ∧ out.length = size :=
  (decompress_spec input size).2 out

/-- For no input is an array read or written outside of its bounds, and every loop ends. -/
theorem C103_safe (input : List Byte) (size : Nat) : decompress input size ≠ .fault := (decompress_spec input size).1

/-- A stream has one meaning: the specification does not leave the result open. -/
theorem C103_unique (input out out' : List Byte) (h : Spec.Stream input out) (h' : Spec.Stream input out') : out = out' := by
  obtain ⟨cmf, flg, rest, rfl, _, b, h1, _⟩ := stream_iff.1 h
  obtain ⟨cmf', flg', rest', he, _, b', h2, _⟩ := stream_iff.1 h'
  simp only [List.cons.injEq] at he
  obtain ⟨rfl, rfl, rfl⟩ := he
  exact (blocks_unique rest h1 h2).1

/-! ### Streams exist -/

/-- A stored block: "abc". -/
example : Spec.Stream [120, 1, 1, 3, 0, 252, 255, 97, 98, 99, 2, 77, 1, 39] [97, 98, 99] :=
  ((C103_exact _ 3 _).1 (by decide +kernel)).1

/-- A block with fixed codes and a match: "abcabcabcabcx". -/
example : Spec.Stream [120, 1, 75, 76, 74, 78, 132, 161, 10, 0, 34, 241, 5, 17] [97, 98, 99, 97, 98, 99, 97, 98, 99, 97, 98, 99, 120] :=
  ((C103_exact _ 13 _).1 (by decide +kernel)).1

/-- A block with codes of its own. -/
example : Spec.Stream [120, 218, 21, 140, 129, 9, 0, 0, 8, 194, 110, 157, 230, 255, 47, 164, 17, 164, 99, 132, 114, 7, 232, 36, 211, 36, 178, 118, 88, 248, 90, 55, 205, 120, 43, 234, 141, 213, 221, 137, 134, 157, 1, 215, 82, 188, 103, 138, 120, 34, 44, 34, 126]
    [97, 98, 101, 100, 100, 97, 97, 97, 98, 100, 98, 98, 99, 97, 100, 97, 97, 98, 97, 101, 97, 97, 98, 100, 100, 97, 99, 98, 97, 99, 100, 97, 98, 97, 97, 97, 97, 97, 99, 98, 97, 97, 99, 97, 97, 99, 97, 98, 97, 100, 98, 98, 98, 97, 97, 97, 99, 97, 100, 98, 97, 97, 97, 101, 98, 99, 97, 97, 99, 99, 101, 97, 97, 99, 97, 99, 99, 98, 97, 98, 101, 99, 97, 97, 97, 98, 98, 101, 98, 97] :=
  ((C103_exact _ 90 _).1 (by decide +kernel)).1

/-- One wrong bit in the checksum. -/
example : ¬ ∃ out, Spec.Stream [120, 1, 1, 3, 0, 252, 255, 97, 98, 99, 2, 77, 1, 38] out ∧ out.length = 3 := by
  rintro ⟨out, h⟩
  have h1 := (C103_exact _ 3 out).2 h
  have h2 : decompress [120, 1, 1, 3, 0, 252, 255, 97, 98, 99, 2, 77, 1, 38] 3 = .err .checksumMismatch := by decide +kernel
  rw [h2] at h1
  cases h1

end Nature.Inflate
