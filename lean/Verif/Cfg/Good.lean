/-
The invariant of the graph.
-/
import Verif.Cfg.Sim
namespace Nature.Cfg

/-- The form of a block: its label, operations, and at most two ways out. -/
inductive Shape : Block → Prop
  | stop {n : Label} {mid : List Ins} {ps : List Label} : (∀ i ∈ mid, ∃ c, i = .op c) → Shape ⟨n, .label n :: mid, ps, []⟩
  | one {n l : Label} {mid : List Ins} {ps : List Label} : (∀ i ∈ mid, ∃ c, i = .op c) →
      Shape ⟨n, .label n :: (mid ++ [.bal l]), ps, [l]⟩
  | two {n l l' c : Nat} {mid : List Ins} {ps ss : List Label} : (∀ i ∈ mid, ∃ c, i = .op c) → l ≠ l' →
      ss = [l, l'] ∨ ss = [l', l] → Shape ⟨n, .label n :: (mid ++ [.br c l', .bal l]), ps, ss⟩

structure Good (t : Nat) (g : Graph) : Prop where
  nodup : (g.map (·.name)).Nodup
  shape : ∀ b ∈ g, Shape b
  closed : ∀ b ∈ g, ∀ s ∈ b.succs, ∃ x ∈ g, x.name = s
  edge : ∀ b ∈ g, ∀ p, p ∈ b.preds ↔ ∃ x ∈ g, x.name = p ∧ b.name ∈ x.succs
  npreds : ∀ b ∈ g, b.preds.Nodup
  fresh : ∀ b ∈ g, b.name < t

theorem Shape.congr {b : Block} (h : Shape b) (ps : List Nat) : Shape { b with preds := ps } := by
  cases h with
  | stop h => exact .stop h
  | one h => exact .one h
  | two h a b => exact .two h a b

theorem Shape.nsuccs {b : Block} (h : Shape b) : b.succs.Nodup := by
  cases h with
  | stop h => simp
  | one h => simp
  | two h a e => rcases e with rfl | rfl <;> simp [a, Ne.symm a]

/-- All branches of a block go to its successors. -/
theorem Shape.jumps {b : Block} (h : Shape b) {P : Nat → Prop} (hp : ∀ s ∈ b.succs, P s) :
    ∀ i ∈ b.ops, match i with | .bal l => P l | .br _ l => P l | _ => True := by
  intro i hi
  cases h with
  | @stop n mid ps h =>
    simp only [List.mem_cons] at hi
    rcases hi with rfl | hi
    · trivial
    · obtain ⟨c, rfl⟩ := h i hi; trivial
  | @one n l mid ps h =>
    simp only [List.mem_cons, List.mem_append, List.not_mem_nil, or_false] at hi
    rcases hi with rfl | hi | rfl
    · trivial
    · obtain ⟨c, rfl⟩ := h i hi; trivial
    · exact hp _ (by simp)
  | @two n l l' c mid ps ss h a e =>
    simp only [List.mem_cons, List.mem_append, List.not_mem_nil, or_false] at hi
    have hl : P l := hp l (by rcases e with rfl | rfl <;> simp)
    have hl' : P l' := hp l' (by rcases e with rfl | rfl <;> simp)
    rcases hi with rfl | hi | rfl | rfl
    · trivial
    · obtain ⟨c, rfl⟩ := h i hi; trivial
    · exact hl'
    · exact hl

/-! ### Finding a block -/

theorem find_some {g : Graph} {l : Nat} {b : Block} (h : g.find? (·.name == l) = some b) : b ∈ g ∧ b.name = l :=
  ⟨List.mem_of_find?_eq_some h, by have := List.find?_some h; simpa using this⟩

theorem find_mem {g : Graph} (hn : (g.map (·.name)).Nodup) {b : Block} (h : b ∈ g) : g.find? (·.name == b.name) = some b := by
  induction g with
  | nil => simp at h
  | cons x g ih =>
    simp only [List.map_cons, List.nodup_cons, List.mem_map, not_exists, not_and] at hn
    rw [List.find?_cons]
    rcases List.mem_cons.mp h with rfl | h'
    · simp
    · have : (x.name == b.name) = false := by simpa using fun e => hn.1 b h' e.symm
      simp only [this, ih hn.2 h']

theorem find_name {g : Graph} (hn : (g.map (·.name)).Nodup) {b : Block} {l : Nat} (h : b ∈ g) (hl : b.name = l) :
    g.find? (·.name == l) = some b := hl ▸ find_mem hn h

theorem same_name {g : Graph} (hn : (g.map (·.name)).Nodup) {a b : Block} (ha : a ∈ g) (hb : b ∈ g) (h : a.name = b.name) : a = b := by
  have h1 := find_mem hn ha
  have h2 := find_mem hn hb
  rw [h, h2] at h1
  exact (Option.some.inj h1).symm

theorem jumps_mem {g : Graph} (hn : (g.map (·.name)).Nodup) {b : Block} (h : b ∈ g) : graphJumps g b.name = some b.ops := by
  simp [graphJumps, find_mem hn h]

theorem succsOf_mem {g : Graph} (hn : (g.map (·.name)).Nodup) {b : Block} (h : b ∈ g) : succsOf g b.name = b.succs := by
  simp [succsOf, find_mem hn h]

theorem predsOf_mem {g : Graph} (hn : (g.map (·.name)).Nodup) {b : Block} (h : b ∈ g) : predsOf g b.name = b.preds := by
  simp [predsOf, find_mem hn h]

theorem opsOf_mem {g : Graph} (hn : (g.map (·.name)).Nodup) {b : Block} (h : b ∈ g) : opsOf g b.name = b.ops := by
  simp [opsOf, find_mem hn h]

/-- Blocks are changed but keep their names. -/
theorem map_names {g : Graph} {f : Block → Block} (hf : ∀ x, (f x).name = x.name) : (g.map f).map (·.name) = g.map (·.name) := by
  rw [List.map_map]
  exact List.map_congr_left fun x _ => hf x

/-- Several changes of the same kind. -/
theorem foldl_change {f : Block → Block} (hn : ∀ x, (f x).name = x.name) (ls : List Nat) : ls.Nodup → ∀ (g : Graph),
    ls.foldl (fun g l => change g l f) g = g.map fun x => if x.name ∈ ls then f x else x := by
  induction ls with
  | nil => intro _ g; simp
  | cons l ls ih =>
    intro hd g
    rw [List.nodup_cons] at hd
    rw [List.foldl_cons, ih hd.2, change, List.map_map]
    refine List.map_congr_left fun x _ => ?_
    simp only [Function.comp]
    by_cases h : x.name = l
    · simp only [h, if_true, List.mem_cons, true_or]
      rw [hn, h, if_neg hd.1]
    · simp only [h, if_false, List.mem_cons, false_or]

end Nature.Cfg
