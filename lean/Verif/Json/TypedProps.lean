import Verif.Json.TypedProofs
/-
C58: what `serialize` writes for a typed value, `deserialize` reads back.
-/
namespace Nature.Json

/-- A whole number rounded to a multiple of a power of two with 53 significant bits, ties to even. -/
def round53 (n : Nat) : Nat :=
  if n < 2 ^ 53 then n
  else
    let e := n.log2 - 52
    let q := n / 2 ^ e
    let r := n % 2 ^ e
    (if 2 * r > 2 ^ e ∨ (2 * r = 2 ^ e ∧ q % 2 = 1) then q + 1 else q) * 2 ^ e

def roundInt (z : Int) : Int := if 0 ≤ z then (round53 z.toNat : Int) else -(round53 (-z).toNat : Int)

/-- `f64` on whole numbers; fractions, which no integer that was serialized has, are cut off. -/
def whole : F64 where
  F := Int
  lit n := round53 n
  add a b := roundInt (a + b)
  mul a b := roundInt (a * b)
  div a b := a / b
  neg a := -a
  toInt _ _ a := a

theorem round53_small {n : Nat} (h : n ≤ 2 ^ 53) : round53 n = n := by
  rw [round53]
  split
  · rfl
  · obtain rfl : n = 2 ^ 53 := by omega
    decide +kernel

theorem roundInt_nat (n : Nat) : roundInt n = round53 n := by rw [roundInt, if_pos (by omega)]; rfl

theorem whole_exact : whole.Exact where
  add m n h := by
    show roundInt ((round53 m : Int) + (round53 n : Int)) = (round53 (m + n) : Int)
    rw [round53_small (n := m) (by omega), round53_small (n := n) (by omega), show (m : Int) + n = (m + n : Nat) by omega, roundInt_nat]
  mul n h := by
    show roundInt ((round53 n : Int) * (round53 10 : Int)) = (round53 (n * 10) : Int)
    rw [round53_small (n := n) (by omega), round53_small (n := 10) (by decide), show (n : Int) * (10 : Nat) = (n * 10 : Nat) by omega,
      roundInt_nat]
  pos sg w n _ h := by
    show (round53 n : Int) = n
    rw [round53_small h]
  neg w n _ h := by
    show -(round53 n : Int) = -n
    rw [round53_small h]

/-- **C58** (partial).  For every type without containers inside containers and every value of it whose integers are at most
2^53 in size (and not the smallest of their type), whose strings are UTF-8 and whose depth is within the limit, the text
`serialize` gives is read back by `deserialize` into memory that holds the value: every element by its index, every entry of
a map, every field.

Missing: nested containers, large integers and elements that are nullable are wrong in the code, see the counterexamples
below; floats, `any` and enumerations are not modelled. -/
theorem C58_roundtrip_partial {O : F64} (hO : O.Exact) {t : Ty} (ht : Supported t) {v : TVal} (hv : Fits t maxDepth v) :
    ∃ c, deserialize O t (ser t v) = .ok c ∧ Holds t c v := deserialize_ser hO ht hv

def sample : Ty := .struct (.cons [105] (.int true 32) (.cons [110] (.opt .str) (.cons [118] (.vec (.int false 8)) (.cons [109] (.map .bool) .nil))))
def sampleVal : TVal := .struct [.int (-305), .some (.str [97, 34, 10]), .vec [.int 0, .int 255, .int 7], .map [([107], .bool true), ([], .bool false)]]

example : ∃ c, deserialize whole sample (ser sample sampleVal) = .ok c ∧ Holds sample c sampleVal := by
  refine C58_roundtrip_partial whole_exact ?_ ?_
  · simp only [sample, Supported, SupportedFields, Flat, and_self]
  · have u1 : ValidUtf8 [97, 34, 10] := ⟨[97, 34, 10], by simp [Scalar], by decide⟩
    have u2 : ValidUtf8 [107] := ⟨[107], by simp [Scalar], by decide⟩
    have u3 : ValidUtf8 ([] : List Byte) := ⟨[], by simp, rfl⟩
    simp only [sample, sampleVal, Fits]
    refine ⟨_, 255, rfl, rfl, by decide, by simp [Fields.names, Name], ?_⟩
    simp only [FitsFields, Fits]
    refine ⟨_, _, rfl, ⟨_, rfl, ⟨by decide, by decide, by simp [Fmt.InRange]⟩, by decide, by decide⟩, _, _, rfl, Or.inr ⟨_, rfl, _, rfl, u1⟩, _, _, rfl,
      ⟨_, 254, rfl, rfl, ?_⟩, _, _, rfl, ⟨_, 254, rfl, rfl, by decide, ?_⟩, rfl⟩
    · intro x hx
      simp only [List.mem_cons, List.not_mem_nil, or_false] at hx
      rcases hx with rfl | rfl | rfl
      · exact ⟨_, rfl, ⟨by decide, by decide, by simp [Fmt.InRange]⟩, by decide, by decide⟩
      · exact ⟨_, rfl, ⟨by decide, by decide, by simp [Fmt.InRange]⟩, by decide, by decide⟩
      · exact ⟨_, rfl, ⟨by decide, by decide, by simp [Fmt.InRange]⟩, by decide, by decide⟩
    · intro x hx
      simp only [List.mem_cons, List.not_mem_nil, or_false] at hx
      rcases hx with rfl | rfl
      · exact ⟨u2, _, rfl⟩
      · exact ⟨u3, _, rfl⟩

/-! ### Where the code does not do it -/

def i64 : Ty := .int true 64

/-- The full claim: every value of every type, if its text is short enough for the limits, comes back. -/
def C58_full (O : F64) : Prop := ∀ t v c, deserialize O t (ser t v) = .ok c → Holds t c v

theorem isInt_eq {r : Res Cell} {z : Int} (h : (match r with | .ok (.int y) => y == z | _ => false) = true) : r = .ok (.int z) := by
  split at h
  · rw [eq_of_beq h]
  · cases h

/-- An integer above 2^53 goes through `f64`: 9007199254740993 comes back as 9007199254740992. -/
theorem C58_large_counterexample : ser i64 (.int 9007199254740993) = "9007199254740993".toUTF8.toList ∧
    deserialize whole i64 (ser i64 (.int 9007199254740993)) = .ok (.int 9007199254740992) := by
  constructor
  · decide +kernel
  · exact isInt_eq (by decide +kernel)

theorem C58_full_counterexample : ¬ C58_full whole := by
  intro h
  have := h i64 (.int 9007199254740993) _ C58_large_counterexample.2
  simp only [i64, Holds] at this
  obtain ⟨z, e1, e2⟩ := this
  injection e1 with e1
  injection e2 with e2
  rw [← e1] at e2
  exact absurd e2 (by decide)

/-- `[[1,2]]` read as `[[int]]`: the inner vector lies in zeroed memory without an element size, so index 1 reads what
index 0 reads. -/
theorem C58_nested_counterexample : ∃ c inner, deserialize whole (.vec (.vec i64)) (ser (.vec (.vec i64)) (.vec [.vec [.int 1, .int 2]])) = .ok c ∧
    c.index 0 = some inner ∧ inner.length = some 2 ∧ inner.index 0 = some (.int 1) ∧ inner.index 1 = some (.int 1) :=
  ⟨_, _, rfl, rfl, rfl, rfl, rfl⟩

/-- An inner vector of nine elements loses the first eight when it grows: what is at index 0 is 0. -/
theorem C58_grow_counterexample : ∃ c inner, deserialize whole (.vec (.vec i64)) (ser (.vec (.vec i64))
      (.vec [.vec [.int 1, .int 2, .int 3, .int 4, .int 5, .int 6, .int 7, .int 8, .int 9]])) = .ok c ∧
    c.index 0 = some inner ∧ inner.length = some 9 ∧ inner.index 0 = some (.int 0) :=
  ⟨_, _, rfl, rfl, rfl, rfl⟩

/-- `[{"a":1}]` read as a vector of maps ends the program: the map in zeroed memory has no key type. -/
theorem C58_map_counterexample :
    deserialize whole (.vec (.map i64)) (ser (.vec (.map i64)) (.vec [.map [([97], .int 1)]])) = .abort := rfl

/-- `[null]` read as a vector of nullables leaves the element without a type. -/
theorem C58_null_counterexample : ∃ c, deserialize whole (.vec (.opt i64)) (ser (.vec (.opt i64)) (.vec [.null])) = .ok c ∧
    c.index 0 = some .unset := ⟨_, rfl, rfl⟩

/-- A member that is given twice, the second time as `null`, keeps the first value: other members take the last. -/
theorem C58_last_counterexample :
    deserialize whole (.struct (.cons [97] (.opt i64) .nil)) "{\"a\":1,\"a\":null}".toUTF8.toList = .ok (.struct [.some (.int 1)]) ∧
    deserialize whole (.struct (.cons [97] i64 .nil)) "{\"a\":1,\"a\":2}".toUTF8.toList = .ok (.struct [.int 2]) := by
  constructor
  · rw [show "{\"a\":1,\"a\":null}".toUTF8.toList = [123, 34, 97, 34, 58, 49, 44, 34, 97, 34, 58, 110, 117, 108, 108, 125] by decide +kernel]
    rfl
  · rw [show "{\"a\":1,\"a\":2}".toUTF8.toList = [123, 34, 97, 34, 58, 49, 44, 34, 97, 34, 58, 50, 125] by decide +kernel]
    rfl

end Nature.Json
