import Verif.Json.Typed
import Verif.Json.Spec
import Verif.Fmt.Spec
/-
What it means that memory holds a value, which values and types the round trip is claimed for, and what is asked of `f64`.
-/
namespace Nature.Json

mutual
/-- A program that reads the memory sees the value: vectors by index and length, maps entry by entry, structs field by
field. -/
def Holds : Ty → Cell → TVal → Prop
  | .bool, c, v => ∃ b, c = .bool b ∧ v = .bool b
  | .int _ _, c, v => ∃ z, c = .int z ∧ v = .int z
  | .str, c, v => ∃ s, c = .str s ∧ v = .str s
  | .vec t, c, v => ∃ l, v = .vec l ∧ c.length = some l.length ∧ ∀ i (h : i < l.length), ∃ e, c.index i = some e ∧ Holds t e l[i]
  | .map t, c, v => ∃ ty es m, c = .map ty es ∧ v = .map m ∧ es.length = m.length ∧
      ∀ i (h1 : i < es.length) (h2 : i < m.length), es[i].1 = m[i].1 ∧ Holds t es[i].2 m[i].2
  | .struct fs, c, v => ∃ cs vs, c = .struct cs ∧ v = .struct vs ∧ HoldsFields fs cs vs
  | .opt t, c, v => (c = .null ∧ v = .null) ∨ ∃ c' v', c = .some c' ∧ v = .some v' ∧ Holds t c' v'
def HoldsFields : Fields → List Cell → List TVal → Prop
  | .nil, cs, vs => cs = [] ∧ vs = []
  | .cons _ t rest, cs, vs => ∃ c cs' v vs', cs = c :: cs' ∧ vs = v :: vs' ∧ Holds t c v ∧ HoldsFields rest cs' vs'
end

/-- The integers of a type. -/
def InType (signed : Bool) (bits : Nat) (z : Int) : Prop :=
  0 < bits ∧ bits ≤ 64 ∧ if signed then Fmt.InRange bits z else 0 ≤ z ∧ z < 2 ^ bits

/-- The integers the round trip is claimed for: those of the type up to 2^53, but not the smallest. -/
def Safe (signed : Bool) (bits : Nat) (z : Int) : Prop :=
  InType signed bits z ∧ (signed = true → z ≠ -2 ^ (bits - 1)) ∧ z.natAbs ≤ 2 ^ 53

/-- A field name: no quotes, backslashes, control characters. -/
def Name (n : List Byte) : Prop := ∀ c ∈ n, 0x20 ≤ c ∧ c < 0x80 ∧ c ≠ 34 ∧ c ≠ 92

def Fields.names : Fields → List (List Byte)
  | .nil => []
  | .cons n _ rest => n :: rest.names

mutual
/-- A value of the type the round trip is claimed for, with at most `d` levels. -/
def Fits : Ty → Nat → TVal → Prop
  | .bool, _, v => ∃ b, v = .bool b
  | .int sg w, _, v => ∃ z, v = .int z ∧ Safe sg w z
  | .str, _, v => ∃ s, v = .str s ∧ ValidUtf8 s
  | .vec t, d, v => ∃ l d', v = .vec l ∧ d = d' + 1 ∧ ∀ x ∈ l, Fits t d' x
  | .map t, d, v => ∃ m d', v = .map m ∧ d = d' + 1 ∧ (m.map Prod.fst).Nodup ∧ ∀ e ∈ m, ValidUtf8 e.1 ∧ Fits t d' e.2
  | .struct fs, d, v => ∃ l d', v = .struct l ∧ d = d' + 1 ∧ fs.names.Nodup ∧ (∀ n ∈ fs.names, Name n) ∧ FitsFields fs d' l
  | .opt t, d, v => v = .null ∨ ∃ v', v = .some v' ∧ Fits t d v'
def FitsFields : Fields → Nat → List TVal → Prop
  | .nil, _, vs => vs = []
  | .cons _ t rest, d, vs => ∃ v vs', vs = v :: vs' ∧ Fits t d v ∧ FitsFields rest d vs'
end

mutual
/-- Booleans, integers, strings and structs of such. -/
def Flat : Ty → Prop
  | .bool => True
  | .int _ _ => True
  | .str => True
  | .struct fs => FlatFields fs
  | .vec _ => False
  | .map _ => False
  | .opt _ => False
def FlatFields : Fields → Prop
  | .nil => True
  | .cons _ t rest => Flat t ∧ FlatFields rest
end

mutual
/-- The types the round trip is claimed for: elements of vectors and values of maps are flat, and so is what a nullable
may hold besides vectors and maps. -/
def Supported : Ty → Prop
  | .bool => True
  | .int _ _ => True
  | .str => True
  | .vec t => Flat t
  | .map t => Flat t
  | .struct fs => SupportedFields fs
  | .opt t =>
    match t with
    | .vec e => Flat e
    | .map e => Flat e
    | t => Flat t
def SupportedFields : Fields → Prop
  | .nil => True
  | .cons _ t rest => Supported t ∧ SupportedFields rest
end

/-- What is asked of `f64`: sums and products with 10 are exact up to 2^53, and so is the conversion to an integer type. -/
structure F64.Exact (O : F64) : Prop where
  add : ∀ m n, m + n ≤ 2 ^ 53 → O.add (O.lit m) (O.lit n) = O.lit (m + n)
  mul : ∀ n, n * 10 ≤ 2 ^ 53 → O.mul (O.lit n) (O.lit 10) = O.lit (n * 10)
  pos : ∀ sg w (n : Nat), InType sg w n → n ≤ 2 ^ 53 → O.toInt sg w (O.lit n) = n
  neg : ∀ w (n : Nat), InType true w (-n) → n ≤ 2 ^ 53 → O.toInt true w (O.neg (O.lit n)) = -n

end Nature.Json
