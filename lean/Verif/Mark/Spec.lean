import Verif.Mark.Model
/-! Specification vocabulary for the mark phase: objects, pointer fields, reachability. -/
namespace Nature.Mark
open Nature.ArenaBits (readKind)

/-- Address `a` points to (or into) the object that starts at `o` and belongs to span `s`. -/
def PointsInto (h : Heap) (a o : Nat) (s : SpanInfo) : Prop :=
  h.spanOf a = some s ∧ ∃ k, k < s.objCount ∧ o = s.base + k * s.objSize ∧ o ≤ a ∧ a < o + s.objSize

/-- The object at `o` has a pointer field whose value points to or into the object at `o'`: a word of the object
that is recorded as a pointer. -/
def Field (h : Heap) (o o' : Nat) : Prop :=
  ∃ s s' k, PointsInto h o o s ∧ s.hasPtr = true ∧ 8 * k < s.objSize ∧
    readKind h.kinds (o + 8 * k) = some true ∧ PointsInto h (h.load (o + 8 * k)) o' s'

/-- The objects reachable from the roots. -/
inductive Reach (h : Heap) (roots : List Nat) : Nat → Prop
  | root (a o : Nat) (s : SpanInfo) (ha : a ∈ roots) (hp : PointsInto h a o s) : Reach h roots o
  | field (o o' : Nat) (hr : Reach h roots o) (hf : Field h o o') : Reach h roots o'

/-- Reflexive-transitive closure: a run of the mark phase. -/
inductive Steps (h : Heap) : St → St → Prop
  | refl (s : St) : Steps h s s
  | tail (a b c : St) (h1 : Steps h a b) (h2 : Step h b c) : Steps h a c

/-- A well-formed heap with finitely many objects, listed in `objs`: an address that has a span lies in one of
the span's objects, an object lies in its own span, and the object's words have recorded kinds, all of them in
the arena in which the object starts. -/
structure WF (h : Heap) (objs : List Nat) : Prop where
  size : ∀ a s, h.spanOf a = some s → 0 < s.objSize
  inside : ∀ a s, h.spanOf a = some s → s.base ≤ a ∧ a < s.base + s.objCount * s.objSize
  same : ∀ a s, h.spanOf a = some s → h.spanOf (objStart s a) = some s
  objs : ∀ a s, h.spanOf a = some s → objStart s a ∈ objs
  kinds : ∀ a s, h.spanOf a = some s → s.hasPtr = true → ∀ k, 8 * k < s.objSize →
    h.kinds.off ≤ objStart s a ∧
    objStart s a + 8 * k < ArenaBits.arenaBase h.kinds (ArenaBits.arenaIndex h.kinds (objStart s a)) + ArenaBits.arenaSize ∧
    (readKind h.kinds (objStart s a + 8 * k)).isSome = true

end Nature.Mark
