import Verif.Resolve.Lemmas
/-! C37: the moves inserted on a control-flow edge deliver every value. -/
namespace Nature.Resolve

/-- **C37 (partial).** For every mapping the allocator can produce, the instructions inserted
on the edge leave in each target location the value its source location had before, from
every machine state, and change nothing else but home slots of source variables.  Missing:
mappings in which one stack slot is both a source and a target, refuted below. -/
theorem C37_deliver_partial (l : List Item) (hm : Mapping l) :
    ∃ out, resolveMappings l = some out ∧ ∀ (V : Type) (K : Nat → V) (σ : State V), Delivered K l σ (run K σ out) :=
  resolve_ok l hm

/-- Three registers in a cycle, a fan-out to a slot, a reload, a recomputed constant. -/
def demo : List Item :=
  [⟨.reg 1, .reg 2, -8, none⟩, ⟨.reg 2, .reg 3, -16, none⟩, ⟨.reg 3, .reg 1, -24, none⟩, ⟨.reg 3, .stack (-24), -24, none⟩,
   ⟨.stack (-32), .reg 5, -32, none⟩, ⟨.reg 6, .reg 7, -40, some 2⟩]

theorem uses_le (l : List Item) (r : Nat) : l.countP (fun it => it.src == .reg r) ≤ l.length := List.countP_le_length

example : Mapping demo := by
  refine ⟨by decide, by decide, ?_, by decide, by decide, by decide, fun r => Nat.lt_of_le_of_lt (uses_le _ _) (by decide)⟩
  intro a ha b hb s h1 h2
  simp only [demo, List.mem_cons, List.not_mem_nil, or_false] at ha hb
  rcases ha with rfl | rfl | rfl | rfl | rfl | rfl <;> simp at h1
  rcases hb with rfl | rfl | rfl | rfl | rfl | rfl <;> simp at h2
  omega

/-- The cycle is broken through the home slot of the last variable in it. -/
example : resolveMappings demo = some
  [.mov (.reg 3) (.stack (-24)), .const 2 (.reg 7), .mov (.stack (-32)) (.reg 5),
   .mov (.reg 3) (.stack (-24)), .mov (.reg 2) (.reg 3), .mov (.reg 1) (.reg 2), .mov (.stack (-24)) (.reg 1)] := by decide

/-- **C37 counterexample**: exchanging a register and a stack slot loses the slot's value. -/
theorem C37_slot_swap_counterexample :
    ∃ l out, (l.map Item.dst).Nodup ∧ (∀ it ∈ l, ¬ (it.src.isStack = true ∧ it.dst.isStack = true)) ∧
      resolveMappings l = some out ∧ ∃ σ : State Nat, ¬ Delivered (fun _ => 0) l σ (run (fun _ => 0) σ out) := by
  refine ⟨[⟨.reg 1, .stack (-8), -16, none⟩, ⟨.stack (-8), .reg 1, -8, none⟩], _, by decide, by decide, by rfl,
    fun x => if x = .reg 1 then 10 else 20, ?_⟩
  intro h
  have := (h.1 ⟨.stack (-8), .reg 1, -8, none⟩ (by simp)).1 rfl
  revert this
  decide

theorem insertMov_eq {α : Type} (id : Int) (m : α) (pre post : List (Int × α)) (h1 : ∀ x ∈ pre, x.1 ≤ id)
    (h2 : ∀ x, post.head? = some x → id < x.1) (h3 : post ≠ []) : insertMov id m (pre ++ post) = some (pre ++ (id, m) :: post) := by
  induction pre with
  | nil =>
    cases post with
    | nil => exact absurd rfl h3
    | cons x post =>
      have := h2 x rfl
      rw [List.nil_append, insertMov, if_neg (by omega)]; rfl
  | cons x pre ih =>
    rw [List.cons_append, insertMov, if_pos (h1 x (List.mem_cons_self ..)), ih fun y hy => h1 y (List.mem_cons_of_mem _ hy)]
    rfl

/-- **C37.** The instructions for one edge are inserted one after the other in the order they
were produced: after every operation numbered at most `id` and before the next one. -/
theorem C37_insert_order {α : Type} (id : Int) (ms : List α) (pre post : List (Int × α)) (h1 : ∀ x ∈ pre, x.1 ≤ id)
    (h2 : ∀ x, post.head? = some x → id < x.1) (h3 : post ≠ []) :
    insertAll id ms (pre ++ post) = some (pre ++ ms.map (fun m => (id, m)) ++ post) := by
  induction ms generalizing pre with
  | nil => simp [insertAll]
  | cons m ms ih =>
    rw [insertAll, insertMov_eq id m pre post h1 h2 h3]
    simp only [Option.bind_some]
    have := ih (pre ++ [(id, m)]) (fun x hx => by
      rcases List.mem_append.1 hx with h | h
      · exact h1 x h
      · rw [List.mem_singleton.1 h]; exact Int.le_refl _)
    simp only [List.append_assoc, List.singleton_append] at this
    rw [this]
    simp

example : insertAll 5 ["a", "b"] [(0, "label"), (4, "x"), (6, "jmp")] = some [(0, "label"), (4, "x"), (5, "a"), (5, "b"), (6, "jmp")] := by decide

end Nature.Resolve
