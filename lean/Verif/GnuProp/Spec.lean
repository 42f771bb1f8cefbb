/-!
# Properties of objects and programs

A property is a type and a value, of some size.  An object has notes, each a list of properties; of several
properties of one type the first counts.  What the types mean is from the x86-64 and AArch64 psABI and the
Linux extensions to the generic ABI.
-/

namespace Nature.GnuProp

/-- Processors. -/
inductive Arch where
  | amd64 | arm64 | riscv64
  deriving DecidableEq, Repr

/-- A property. -/
structure Property where
  type : Nat
  size : Nat
  value : Nat
  deriving DecidableEq, Repr

namespace Spec

/-- What a list of properties says of a type: no property is like zero. -/
def read (ps : List Property) (t : Nat) : Nat :=
  match ps.find? (fun p => p.type = t) with
  | some p => p.value
  | none => 0

/-- A list of properties has one of a type. -/
def Has (ps : List Property) (t : Nat) : Prop := ∃ p ∈ ps, p.type = t

/-- Features that a program has only if all of its objects have them: among them control-flow protection
(IBT and SHSTK, BTI and PAC). -/
def All (arch : Arch) (t : Nat) : Prop :=
  (0xb0000000 ≤ t ∧ t ≤ 0xb0007fff) ∨ (arch = .arm64 ∧ t = 0xc0000000) ∨ (arch = .amd64 ∧ t = 0xc0000002)

/-- What a program needs if one of its objects does. -/
def Any (arch : Arch) (t : Nat) : Prop :=
  (0xb0008000 ≤ t ∧ t ≤ 0xb000ffff) ∨ (arch = .amd64 ∧ (t = 0xc0008001 ∨ t = 0xc0008002))

/-- What a program uses: known only if it is known of all objects. -/
def Used (arch : Arch) (t : Nat) : Prop := arch = .amd64 ∧ (t = 0xc0010001 ∨ t = 0xc0010002)

end Spec

end Nature.GnuProp
