/-
Uses, definitions and live variables: what ssa.c:211-240 and 296-457 compute.
-/
import Verif.Ssa.Dom
namespace Nature.Ssa

/-! ### Uses and definitions -/

/-- What holds of the lists of one block while its operations are read, starting with the global variables `g`. -/
structure UInv (g : List Nat) (s : UseDef) : Prop where
  exist : ∀ v, v ∈ s.existUse ↔ v ∈ s.use ∨ v ∈ s.defs
  globals : ∀ v, v ∈ s.globals ↔ v ∈ g ∨ v ∈ s.use
  nodup : s.globals.Nodup

theorem addUse_spec {g : List Nat} {s : UseDef} (h : UInv g s) (x : Var) :
    UInv g (addUse s x) ∧ (addUse s x).defs = s.defs ∧
    ∀ v, v ∈ (addUse s x).use ↔ v ∈ s.use ∨ (v = x ∧ ¬ v ∈ s.defs) := by
  by_cases hc : ¬ x ∈ s.defs ∧ ¬ x ∈ s.existUse
  · have e : addUse s x = ⟨s.use ++ [x], s.defs, s.existUse ++ [x],
        if x ∈ s.globals then s.globals else s.globals ++ [x]⟩ := by
      simp only [addUse, if_pos hc]
    rw [e]
    refine ⟨⟨?_, ?_, ?_⟩, rfl, ?_⟩
    · intro v
      simp only [List.mem_append, List.mem_singleton, h.exist]
      constructor
      · rintro ((h | h) | h)
        · exact Or.inl (Or.inl h)
        · exact Or.inr h
        · exact Or.inl (Or.inr h)
      · rintro ((h | h) | h)
        · exact Or.inl (Or.inl h)
        · exact Or.inr h
        · exact Or.inl (Or.inr h)
    · intro v
      have hg := h.globals v
      by_cases hx : x ∈ s.globals
      · simp only [hx, if_true, List.mem_append, List.mem_singleton]
        rw [hg]
        constructor
        · rintro (h | h)
          · exact Or.inl h
          · exact Or.inr (Or.inl h)
        · rintro (h | h | rfl)
          · exact Or.inl h
          · exact Or.inr h
          · exact hg.mp hx
      · simp only [hx, if_false, List.mem_append, List.mem_singleton, hg]
        exact ⟨fun h => by rcases h with (h | h) | h <;> simp [h], fun h => by rcases h with h | h | h <;> simp [h]⟩
    · simp only
      split
      · exact h.nodup
      · rename_i hx
        exact List.nodup_append.mpr ⟨h.nodup, by simp, by
          intro a ha b hb
          rw [List.mem_singleton] at hb
          exact fun e => hx (hb ▸ e ▸ ha)⟩
    · intro v
      simp only [List.mem_append, List.mem_singleton]
      constructor
      · rintro (h | rfl)
        · exact Or.inl h
        · exact Or.inr ⟨rfl, hc.1⟩
      · rintro (h | h)
        · exact Or.inl h
        · exact Or.inr h.1
  · have e : addUse s x = s := by simp only [addUse, if_neg hc]
    rw [e]
    refine ⟨h, rfl, fun v => ⟨Or.inl, ?_⟩⟩
    rintro (h' | ⟨rfl, hd⟩)
    · exact h'
    · have : v ∈ s.existUse := Classical.byContradiction fun hn => hc ⟨hd, hn⟩
      exact ((h.exist v).mp this).resolve_right hd

theorem addUses_spec {g : List Nat} : ∀ (us : List Nat) {s : UseDef}, UInv g s →
    UInv g (us.foldl addUse s) ∧ (us.foldl addUse s).defs = s.defs ∧
    ∀ v, v ∈ (us.foldl addUse s).use ↔ v ∈ s.use ∨ (v ∈ us ∧ ¬ v ∈ s.defs) := by
  intro us
  induction us with
  | nil => intro s h; exact ⟨h, rfl, by simp⟩
  | cons x us ih =>
    intro s h
    obtain ⟨a1, a2, a3⟩ := addUse_spec h x
    obtain ⟨b1, b2, b3⟩ := ih a1
    simp only [List.foldl_cons]
    refine ⟨b1, by rw [b2, a2], fun v => ?_⟩
    rw [b3, a3, a2]
    simp only [List.mem_cons]
    constructor
    · rintro ((h | h) | h)
      · exact Or.inl h
      · exact Or.inr ⟨Or.inl h.1, h.2⟩
      · exact Or.inr ⟨Or.inr h.1, h.2⟩
    · rintro (h | ⟨h | h, hd⟩)
      · exact Or.inl (Or.inl h)
      · exact Or.inl (Or.inr ⟨h, hd⟩)
      · exact Or.inr ⟨h, hd⟩

theorem addDefs_spec {g : List Nat} : ∀ (ds : List Nat) {s : UseDef}, UInv g s →
    UInv g (ds.foldl addDef s) ∧ (ds.foldl addDef s).defs = s.defs ++ ds ∧ (ds.foldl addDef s).use = s.use := by
  intro ds
  induction ds with
  | nil => intro s h; exact ⟨h, by simp, rfl⟩
  | cons x ds ih =>
    intro s h
    have h' : UInv g (addDef s x) := by
      refine ⟨?_, h.globals, h.nodup⟩
      intro v
      simp only [addDef, List.mem_append, List.mem_singleton, h.exist]
      exact ⟨fun h => by rcases h with (h | h) | h <;> simp [h], fun h => by rcases h with h | h | h <;> simp [h]⟩
    obtain ⟨b1, b2, b3⟩ := ih h'
    exact ⟨b1, by simp only [List.foldl_cons]; rw [b2]; simp [addDef], b3⟩

theorem useDefOp_spec {g : List Nat} {s : UseDef} (h : UInv g s) (o : Op) :
    UInv g (useDefOp s o) ∧ (useDefOp s o).defs = s.defs ++ o.defs ∧
    ∀ v, v ∈ (useDefOp s o).use ↔ v ∈ s.use ∨ (v ∈ o.uses ∧ ¬ v ∈ s.defs) := by
  obtain ⟨a1, a2, a3⟩ := addUses_spec o.uses h
  obtain ⟨b1, b2, b3⟩ := addDefs_spec o.defs a1
  exact ⟨b1, by rw [useDefOp, b2, a2], fun v => by rw [useDefOp, b3, a3]⟩

theorem useDefOps_spec {g : List Nat} : ∀ (ops : List Op) {s : UseDef}, UInv g s →
    UInv g (ops.foldl useDefOp s) ∧ (∀ v, v ∈ (ops.foldl useDefOp s).defs ↔ v ∈ s.defs ∨ Writes v ops) ∧
    ∀ v, v ∈ (ops.foldl useDefOp s).use ↔ v ∈ s.use ∨ (ReadsFirst v ops ∧ ¬ v ∈ s.defs) := by
  intro ops
  induction ops with
  | nil => intro s h; exact ⟨h, by simp [Writes], by simp [ReadsFirst]⟩
  | cons o ops ih =>
    intro s h
    obtain ⟨a1, a2, a3⟩ := useDefOp_spec h o
    obtain ⟨b1, b2, b3⟩ := ih a1
    simp only [List.foldl_cons]
    refine ⟨b1, fun v => ?_, fun v => ?_⟩
    · rw [b2, a2]
      simp only [Writes, List.mem_append, List.mem_cons, exists_eq_or_imp]
      exact ⟨fun h => by rcases h with (h | h) | h <;> simp [h], fun h => by rcases h with h | h | h <;> simp [h]⟩
    · rw [b3, a3, a2]
      simp only [ReadsFirst, List.mem_append]
      constructor
      · rintro ((h | h) | h)
        · exact Or.inl h
        · exact Or.inr ⟨Or.inl h.1, h.2⟩
        · exact Or.inr ⟨Or.inr ⟨fun e => h.2 (Or.inr e), h.1⟩, fun e => h.2 (Or.inl e)⟩
      · rintro (h | ⟨h | h, hd⟩)
        · exact Or.inl (Or.inl h)
        · exact Or.inl (Or.inr ⟨h, hd⟩)
        · exact Or.inr ⟨h.2, fun e => e.elim hd h.1⟩

theorem useDefBlock_spec {g : List Nat} (hg : g.Nodup) (ops : List Op) :
    (useDefBlock g ops).globals.Nodup ∧ (∀ v, v ∈ (useDefBlock g ops).globals ↔ v ∈ g ∨ ReadsFirst v ops) ∧
    (∀ v, v ∈ (useDefBlock g ops).defs ↔ Writes v ops) ∧ ∀ v, v ∈ (useDefBlock g ops).use ↔ ReadsFirst v ops := by
  have h0 : UInv g ⟨[], [], [], g⟩ := ⟨by simp, by simp, hg⟩
  obtain ⟨a1, a2, a3⟩ := useDefOps_spec ops h0
  have hu : ∀ v, v ∈ (useDefBlock g ops).use ↔ ReadsFirst v ops := fun v => by rw [useDefBlock, a3]; simp
  refine ⟨a1.nodup, fun v => ?_, fun v => by rw [useDefBlock, a2]; simp, hu⟩
  rw [← hu]
  exact a1.globals v

theorem mem_pushBlocks (b : Blk) : ∀ (vs : List Nat) (t : Nat → List Nat) (v x : Nat),
    x ∈ pushBlocks b vs t v ↔ x ∈ t v ∨ (x = b ∧ v ∈ vs) := by
  intro vs
  induction vs with
  | nil => intro t v x; simp [pushBlocks]
  | cons y vs ih =>
    intro t v x
    have : pushBlocks b (y :: vs) t = pushBlocks b vs (upd t y (t y ++ [b])) := rfl
    rw [this, ih]
    by_cases hv : v = y
    · subst hv
      simp only [upd, if_true, List.mem_append, List.mem_cons, true_or, and_true, List.not_mem_nil, or_false]
      constructor
      · rintro ((h | h) | h)
        · exact Or.inl h
        · exact Or.inr h
        · exact Or.inr h.1
      · rintro (h | h)
        · exact Or.inl (Or.inl h)
        · exact Or.inl (Or.inr h)
    · simp [upd, hv]

structure AInv (c : Cfg) (bs : List Nat) (a r : Analysis) : Prop where
  use : ∀ b v, v ∈ r.use b ↔ (b ∈ bs ∧ ReadsFirst v (c.ops b)) ∨ (¬ b ∈ bs ∧ v ∈ a.use b)
  defs : ∀ b v, v ∈ r.defs b ↔ (b ∈ bs ∧ Writes v (c.ops b)) ∨ (¬ b ∈ bs ∧ v ∈ a.defs b)
  globals : ∀ v, v ∈ r.globals ↔ v ∈ a.globals ∨ ∃ b ∈ bs, ReadsFirst v (c.ops b)
  nodup : r.globals.Nodup
  blocks : ∀ v x, x ∈ r.varBlocks v ↔ x ∈ a.varBlocks v ∨ (x ∈ bs ∧ Writes v (c.ops x))

theorem useDefFrom_spec {c : Cfg} : ∀ (bs : List Nat) (a : Analysis), a.globals.Nodup → AInv c bs a (useDefFrom c bs a) := by
  intro bs
  induction bs with
  | nil => intro a h; exact ⟨by simp [useDefFrom], by simp [useDefFrom], by simp [useDefFrom], h, by simp [useDefFrom]⟩
  | cons b bs ih =>
    intro a h
    obtain ⟨u1, u2, u3, u4⟩ := useDefBlock_spec h (c.ops b)
    obtain ⟨i1, i2, i3, i4, i5⟩ := ih ⟨upd a.use b (useDefBlock a.globals (c.ops b)).use,
      upd a.defs b (useDefBlock a.globals (c.ops b)).defs, (useDefBlock a.globals (c.ops b)).globals,
      pushBlocks b (useDefBlock a.globals (c.ops b)).defs a.varBlocks⟩ u1
    simp only [useDefFrom]
    refine ⟨?_, ?_, ?_, i4, ?_⟩
    · intro x v
      rw [i1]
      by_cases hx : x = b
      · subst hx
        simp only [upd, if_true, u4, List.mem_cons, true_or, true_and, not_true, false_and, or_false]
        by_cases hb : x ∈ bs <;> simp [hb]
      · simp [upd, hx]
    · intro x v
      rw [i2]
      by_cases hx : x = b
      · subst hx
        simp only [upd, if_true, u3, List.mem_cons, true_or, true_and, not_true, false_and, or_false]
        by_cases hb : x ∈ bs <;> simp [hb]
      · simp [upd, hx]
    · intro v
      rw [i3, u2]
      simp only [List.mem_cons, exists_eq_or_imp]
      exact ⟨fun h => by rcases h with (h | h) | h <;> simp [h], fun h => by rcases h with h | h | h <;> simp [h]⟩
    · intro v x
      rw [i5, mem_pushBlocks, u3]
      simp only [List.mem_cons]
      constructor
      · rintro ((h | ⟨rfl, h⟩) | ⟨h, h'⟩)
        · exact Or.inl h
        · exact Or.inr ⟨Or.inl rfl, h⟩
        · exact Or.inr ⟨Or.inr h, h'⟩
      · rintro (h | ⟨rfl | h, h'⟩)
        · exact Or.inl (Or.inl h)
        · exact Or.inl (Or.inr ⟨rfl, h'⟩)
        · exact Or.inr ⟨h, h'⟩

theorem ops_of_ge {c : Cfg} {b : Blk} (h : ¬ b < c.length) : c.ops b = [] := by
  simp [Cfg.ops, List.getElem?_eq_none (by omega : c.length ≤ b)]

structure UDSpec (c : Cfg) (a : Analysis) : Prop where
  use : ∀ b v, v ∈ a.use b ↔ ReadsFirst v (c.ops b)
  defs : ∀ b v, v ∈ a.defs b ↔ Writes v (c.ops b)
  globals : ∀ v, v ∈ a.globals ↔ ∃ b, ReadsFirst v (c.ops b)
  nodup : a.globals.Nodup
  blocks : ∀ v x, x ∈ a.varBlocks v ↔ Writes v (c.ops x)

theorem useDef_spec (c : Cfg) : UDSpec c (useDef c) := by
  have h := useDefFrom_spec (c := c) (List.range c.length) ⟨fun _ => [], fun _ => [], [], fun _ => []⟩ (by simp)
  have hr : ∀ b v, ReadsFirst v (c.ops b) → b < c.length := by
    intro b v h
    by_cases hb : b < c.length
    · exact hb
    · rw [ops_of_ge hb] at h; exact h.elim
  have hw : ∀ b v, Writes v (c.ops b) → b < c.length := by
    intro b v h
    by_cases hb : b < c.length
    · exact hb
    · rw [ops_of_ge hb] at h
      obtain ⟨o, ho, _⟩ := h
      simp at ho
  refine ⟨fun b v => ?_, fun b v => ?_, fun v => ?_, h.nodup, fun v x => ?_⟩
  · rw [useDef, h.use]
    simp only [List.mem_range, List.not_mem_nil, and_false, or_false]
    exact ⟨fun h => h.2, fun h => ⟨hr b v h, h⟩⟩
  · rw [useDef, h.defs]
    simp only [List.mem_range, List.not_mem_nil, and_false, or_false]
    exact ⟨fun h => h.2, fun h => ⟨hw b v h, h⟩⟩
  · rw [useDef, h.globals]
    simp only [List.mem_range, List.not_mem_nil, false_or]
    exact ⟨fun ⟨b, _, h⟩ => ⟨b, h⟩, fun ⟨b, h⟩ => ⟨b, hr b v h, h⟩⟩
  · rw [useDef, h.blocks]
    simp only [List.mem_range, List.not_mem_nil, false_or]
    exact ⟨fun h => h.2, fun h => ⟨hw x v h, h⟩⟩

/-! ### Live variables -/

theorem addNew_spec : ∀ (l acc : List Nat), acc.Nodup → (l.foldl addNew acc).Nodup ∧
    ∀ v, v ∈ l.foldl addNew acc ↔ v ∈ acc ∨ v ∈ l := by
  intro l
  induction l with
  | nil => intro acc h; exact ⟨h, by simp⟩
  | cons x l ih =>
    intro acc h
    simp only [List.foldl_cons]
    by_cases hx : x ∈ acc
    · have e : addNew acc x = acc := by simp [addNew, hx]
      rw [e]
      refine ⟨(ih acc h).1, fun v => ?_⟩
      rw [(ih acc h).2]
      simp only [List.mem_cons]
      exact ⟨fun h => by rcases h with h | h <;> simp [h], fun h => h.elim Or.inl fun h => h.elim (fun e => Or.inl (e ▸ hx)) Or.inr⟩
    · have e : addNew acc x = acc ++ [x] := by simp [addNew, hx]
      rw [e]
      have hn : (acc ++ [x]).Nodup := List.nodup_append.mpr ⟨h, by simp, by
        intro a ha b hb
        rw [List.mem_singleton] at hb
        exact fun e => hx (hb ▸ e ▸ ha)⟩
      refine ⟨(ih _ hn).1, fun v => ?_⟩
      rw [(ih _ hn).2]
      simp only [List.mem_cons, List.mem_append, List.not_mem_nil, or_false]
      exact ⟨fun h => by rcases h with (h | h) | h <;> simp [h], fun h => by rcases h with h | h | h <;> simp [h]⟩

theorem calcLiveOut_spec (c : Cfg) (inn : Nat → List Nat) (b : Blk) : (calcLiveOut c inn b).Nodup ∧
    ∀ v, v ∈ calcLiveOut c inn b ↔ ∃ s ∈ c.succs b, v ∈ inn s := by
  have key : ∀ (ss acc : List Nat), acc.Nodup → (ss.foldl (fun l s => (inn s).foldl addNew l) acc).Nodup ∧
      ∀ v, v ∈ ss.foldl (fun l s => (inn s).foldl addNew l) acc ↔ v ∈ acc ∨ ∃ s ∈ ss, v ∈ inn s := by
    intro ss
    induction ss with
    | nil => intro acc h; exact ⟨h, by simp⟩
    | cons s ss ih =>
      intro acc h
      obtain ⟨a1, a2⟩ := addNew_spec (inn s) acc h
      obtain ⟨i1, i2⟩ := ih _ a1
      simp only [List.foldl_cons]
      refine ⟨i1, fun v => ?_⟩
      rw [i2, a2]
      simp only [List.mem_cons, exists_eq_or_imp]
      exact ⟨fun h => by rcases h with (h | h) | h <;> simp [h], fun h => by rcases h with h | h | h <;> simp [h]⟩
  refine ⟨(key _ [] (by simp)).1, fun v => ?_⟩
  rw [calcLiveOut, (key _ [] (by simp)).2]
  simp

theorem calcLiveIn_spec (use defs out : List Nat) : (calcLiveIn use defs out).Nodup ∧
    ∀ v, v ∈ calcLiveIn use defs out ↔ v ∈ use ∨ (v ∈ out ∧ ¬ v ∈ defs) := by
  have key : ∀ (out acc : List Nat), acc.Nodup →
      (out.foldl (fun l v => if v ∈ l then l else if v ∈ defs then l else l ++ [v]) acc).Nodup ∧
      ∀ v, v ∈ out.foldl (fun l v => if v ∈ l then l else if v ∈ defs then l else l ++ [v]) acc ↔
        v ∈ acc ∨ (v ∈ out ∧ ¬ v ∈ defs) := by
    intro out
    induction out with
    | nil => intro acc h; exact ⟨h, by simp⟩
    | cons x out ih =>
      intro acc h
      simp only [List.foldl_cons]
      by_cases hx : x ∈ acc
      · simp only [hx, if_true]
        refine ⟨(ih acc h).1, fun v => ?_⟩
        rw [(ih acc h).2]
        simp only [List.mem_cons]
        constructor
        · rintro (h | h)
          · exact Or.inl h
          · exact Or.inr ⟨Or.inr h.1, h.2⟩
        · rintro (h | ⟨rfl | h, hd⟩)
          · exact Or.inl h
          · exact Or.inl hx
          · exact Or.inr ⟨h, hd⟩
      · simp only [hx, if_false]
        by_cases hd : x ∈ defs
        · simp only [hd, if_true]
          refine ⟨(ih acc h).1, fun v => ?_⟩
          rw [(ih acc h).2]
          simp only [List.mem_cons]
          constructor
          · rintro (h | h)
            · exact Or.inl h
            · exact Or.inr ⟨Or.inr h.1, h.2⟩
          · rintro (h | ⟨rfl | h, hd'⟩)
            · exact Or.inl h
            · exact absurd hd hd'
            · exact Or.inr ⟨h, hd'⟩
        · simp only [hd, if_false]
          have hn : (acc ++ [x]).Nodup := List.nodup_append.mpr ⟨h, by simp, by
            intro a ha b hb
            rw [List.mem_singleton] at hb
            exact fun e => hx (hb ▸ e ▸ ha)⟩
          refine ⟨(ih _ hn).1, fun v => ?_⟩
          rw [(ih _ hn).2]
          simp only [List.mem_cons, List.mem_append, List.not_mem_nil, or_false]
          constructor
          · rintro ((h | rfl) | h)
            · exact Or.inl h
            · exact Or.inr ⟨Or.inl rfl, hd⟩
            · exact Or.inr ⟨Or.inr h.1, h.2⟩
          · rintro (h | ⟨rfl | h, hd'⟩)
            · exact Or.inl (Or.inl h)
            · exact Or.inl (Or.inr rfl)
            · exact Or.inr ⟨h, hd'⟩
  obtain ⟨a1, a2⟩ := addNew_spec use [] (by simp)
  refine ⟨(key out _ a1).1, fun v => ?_⟩
  rw [calcLiveIn, (key out _ a1).2, a2]
  simp

/-- Without repetition, a list is at most as long as one that holds all its elements. -/
theorem nodup_len : ∀ (l m : List Nat), l.Nodup → (∀ x ∈ l, x ∈ m) →
    l.length ≤ m.length ∧ (m.length ≤ l.length → ∀ x ∈ m, x ∈ l) := by
  intro l
  induction l with
  | nil =>
    intro m _ _
    refine ⟨by simp, fun h x hx => ?_⟩
    cases m with
    | nil => exact hx
    | cons y m => simp at h
  | cons a l ih =>
    intro m hn hs
    rw [List.nodup_cons] at hn
    have ha := hs a List.mem_cons_self
    have hs' : ∀ x ∈ l, x ∈ m.erase a := by
      intro x hx
      have : x ≠ a := fun e => hn.1 (e ▸ hx)
      exact (List.mem_erase_of_ne this).mpr (hs x (List.mem_cons_of_mem _ hx))
    obtain ⟨i1, i2⟩ := ih (m.erase a) hn.2 hs'
    have hl := List.length_erase_of_mem ha
    have hpos : 0 < m.length := List.length_pos_of_mem ha
    simp only [List.length_cons]
    refine ⟨by omega, fun h x hx => ?_⟩
    by_cases hxa : x = a
    · simp [hxa]
    · exact List.mem_cons_of_mem _ (i2 (by omega) x ((List.mem_erase_of_ne hxa).mpr hx))

theorem liveChanged_false {old new : List Nat} (h : liveChanged old new = false) :
    old.length = new.length ∧ (∀ v ∈ new, v ∈ old) ∧ new.length < 256 := by
  simp only [liveChanged] at h
  split at h
  · simp at h
  · rename_i h1
    split at h
    · simp at h
    · rename_i h2
      simp only [List.any_eq_true, Bool.not_eq_true', not_exists, not_and, Bool.not_eq_false, List.contains_iff_mem] at h2
      simp only [bne_eq_false_iff_eq] at h
      exact ⟨by omega, h2, by omega⟩

theorem liveChanged_true {old new : List Nat} (h : liveChanged old new = true) (h1 : old.Nodup)
    (hs : ∀ v ∈ old, v ∈ new) (hl : new.length < 256) : old.length < new.length := by
  obtain ⟨a1, a2⟩ := nodup_len old new h1 hs
  rcases Nat.lt_or_ge old.length new.length with hlt | hge
  · exact hlt
  exfalso
  have hsub := a2 hge
  simp only [liveChanged] at h
  rw [if_neg (by omega), if_neg, Nat.mod_eq_of_lt hl] at h
  · simp at h
  · simp only [List.any_eq_true, Bool.not_eq_true', not_exists, not_and, Bool.not_eq_false, List.contains_iff_mem]
    exact hsub

/-! Invariants of the rounds -/

theorem liveStep_inv {c : Cfg} {a : Analysis} {P : Live → Prop} {b : Blk}
    (ho : ∀ l, P l → P ⟨l.inn, upd l.out b (calcLiveOut c l.inn b)⟩)
    (hi : ∀ l, P l → P ⟨upd l.inn b (calcLiveIn (a.use b) (a.defs b) (l.out b)), l.out⟩) (l : Live) (ch : Bool) (h : P l) :
    P (liveStep c a b l ch).1 := by
  simp only [liveStep]
  cases h1 : liveChanged (l.out b) (calcLiveOut c l.inn b) with
  | true =>
    simp only [if_true]
    split
    · exact hi _ (ho l h)
    · exact ho l h
  | false =>
    simp only [Bool.false_eq_true, if_false]
    split
    · exact hi _ h
    · exact h

theorem livePass_inv {c : Cfg} {a : Analysis} {P : Live → Prop} {bs : List Nat}
    (ho : ∀ b ∈ bs, ∀ l, P l → P ⟨l.inn, upd l.out b (calcLiveOut c l.inn b)⟩)
    (hi : ∀ b ∈ bs, ∀ l, P l → P ⟨upd l.inn b (calcLiveIn (a.use b) (a.defs b) (l.out b)), l.out⟩) :
    ∀ bs', (∀ b ∈ bs', b ∈ bs) → ∀ l ch, P l → P (livePass c a bs' l ch).1 := by
  intro bs'
  induction bs' with
  | nil => intro _ l ch h; exact h
  | cons b rest ih =>
    intro hs l ch h
    exact ih (fun x hx => hs x (List.mem_cons_of_mem _ hx)) _ _
      (liveStep_inv (ho b (hs b List.mem_cons_self)) (hi b (hs b List.mem_cons_self)) l ch h)

theorem liveStep_stable {c : Cfg} {a : Analysis} {b : Blk} {l : Live} {ch : Bool} (h : (liveStep c a b l ch).2 = false) :
    ch = false ∧ (liveStep c a b l ch).1 = l ∧ liveChanged (l.out b) (calcLiveOut c l.inn b) = false ∧
    liveChanged (l.inn b) (calcLiveIn (a.use b) (a.defs b) (l.out b)) = false := by
  simp only [liveStep] at h ⊢
  cases h1 : liveChanged (l.out b) (calcLiveOut c l.inn b) with
  | true =>
    simp only [h1, if_true] at h
    split at h <;> simp at h
  | false =>
    simp only [h1, Bool.false_eq_true, if_false] at h ⊢
    cases h2 : liveChanged (l.inn b) (calcLiveIn (a.use b) (a.defs b) (l.out b)) with
    | true => simp [h2] at h
    | false =>
      simp only [h2, Bool.false_eq_true, if_false] at h ⊢
      exact ⟨h, by trivial, by trivial, by trivial⟩

theorem livePass_stable {c : Cfg} {a : Analysis} : ∀ (bs : List Nat) (l : Live) (ch : Bool),
    (livePass c a bs l ch).2 = false → ch = false ∧ (livePass c a bs l ch).1 = l ∧
    ∀ b ∈ bs, liveChanged (l.out b) (calcLiveOut c l.inn b) = false ∧
      liveChanged (l.inn b) (calcLiveIn (a.use b) (a.defs b) (l.out b)) = false := by
  intro bs
  induction bs with
  | nil => intro l ch h; exact ⟨h, rfl, by simp⟩
  | cons b rest ih =>
    intro l ch h
    simp only [livePass] at h ⊢
    obtain ⟨i1, i2, i3⟩ := ih _ _ h
    obtain ⟨s1, s2, s3, s4⟩ := liveStep_stable i1
    rw [i2]
    rw [s2] at i3 ⊢
    exact ⟨s1, rfl, by simpa using ⟨⟨s3, s4⟩, i3⟩⟩

theorem liveLoop_inv {c : Cfg} {a : Analysis} {P : Live → Prop}
    (ho : ∀ b, b < c.length → ∀ l, P l → P ⟨l.inn, upd l.out b (calcLiveOut c l.inn b)⟩)
    (hi : ∀ b, b < c.length → ∀ l, P l → P ⟨upd l.inn b (calcLiveIn (a.use b) (a.defs b) (l.out b)), l.out⟩) :
    ∀ n l r, P l → liveLoop c a n l = some r → P r ∧ ∀ b, b < c.length →
      liveChanged (r.out b) (calcLiveOut c r.inn b) = false ∧
      liveChanged (r.inn b) (calcLiveIn (a.use b) (a.defs b) (r.out b)) = false := by
  intro n
  induction n with
  | zero => intro l r _ h; simp [liveLoop] at h
  | succ n ih =>
    intro l r h0 h
    simp only [liveLoop] at h
    have hp := livePass_inv (c := c) (a := a) (P := P) (bs := (List.range c.length).reverse)
      (fun b hb => ho b (by simpa using hb)) (fun b hb => hi b (by simpa using hb)) _ (fun b hb => hb) l false h0
    split at h
    · exact ih _ _ hp h
    · rename_i hc
      simp only [Option.some.injEq] at h
      obtain ⟨_, h2, h3⟩ := livePass_stable (c := c) (a := a) _ l false (by simpa using hc)
      rw [h2] at h
      subst h
      exact ⟨h0, fun b hb => h3 b (by simpa using hb)⟩

/-- The tables hold only live variables. -/
structure LInv (c : Cfg) (l : Live) : Prop where
  inn : ∀ b v, v ∈ l.inn b → LiveAt c v b
  out : ∀ b v, v ∈ l.out b → ∃ s ∈ c.succs b, LiveAt c v s

theorem linv_out {c : Cfg} {l : Live} (b : Blk) (h : LInv c l) : LInv c ⟨l.inn, upd l.out b (calcLiveOut c l.inn b)⟩ := by
  refine ⟨h.inn, fun x v hv => ?_⟩
  simp only [upd] at hv
  split at hv
  · rename_i hx
    subst hx
    obtain ⟨s, hs, hm⟩ := ((calcLiveOut_spec c l.inn x).2 v).mp hv
    exact ⟨s, hs, h.inn s v hm⟩
  · exact h.out x v hv

theorem linv_in {c : Cfg} {a : Analysis} (u : UDSpec c a) {l : Live} (b : Blk) (h : LInv c l) :
    LInv c ⟨upd l.inn b (calcLiveIn (a.use b) (a.defs b) (l.out b)), l.out⟩ := by
  refine ⟨fun x v hv => ?_, h.out⟩
  simp only [upd] at hv
  split at hv
  · rename_i hx
    subst hx
    rcases ((calcLiveIn_spec _ _ _).2 v).mp hv with h1 | ⟨h1, h2⟩
    · exact LiveAt.read ((u.use x v).mp h1)
    · obtain ⟨s, hs, hl⟩ := h.out x v h1
      exact LiveAt.pass (fun hw => h2 ((u.defs x v).mpr hw)) hs hl
  · exact h.inn x v hv

theorem live_spec {c : Cfg} (w : Wf c) {fuel : Nat} {l : Live} (h : live c (useDef c) fuel = some l) :
    (∀ b, b < c.length → ∀ v, v ∈ l.inn b ↔ LiveAt c v b) ∧
    (∀ b, b < c.length → ∀ v, v ∈ l.out b ↔ ∃ s ∈ c.succs b, LiveAt c v s) ∧
    ∀ b, b < c.length → (l.inn b).length < 256 := by
  have u := useDef_spec c
  obtain ⟨hi, hf⟩ := liveLoop_inv (P := LInv c) (fun b _ l hl => linv_out b hl) (fun b _ l hl => linv_in u b hl) _ _ _
    ⟨by simp, by simp⟩ h
  have hsucc : ∀ b s, s ∈ c.succs b → s < c.length := fun b s hs => (preds_lt w ((w.edge b s).mp hs)).2.1
  have hin : ∀ b v, LiveAt c v b → b < c.length → v ∈ l.inn b := by
    intro b v hl
    induction hl with
    | @read b hr =>
      intro hb
      exact (liveChanged_false (hf b hb).2).2.1 v (((calcLiveIn_spec _ _ _).2 v).mpr (Or.inl ((u.use b v).mpr hr)))
    | @pass b s hw hs hl ih =>
      intro hb
      have h1 : v ∈ l.out b := (liveChanged_false (hf b hb).1).2.1 v
        (((calcLiveOut_spec _ _ _).2 v).mpr ⟨s, hs, ih (hsucc b s hs)⟩)
      exact (liveChanged_false (hf b hb).2).2.1 v
        (((calcLiveIn_spec _ _ _).2 v).mpr (Or.inr ⟨h1, fun hd => hw ((u.defs b v).mp hd)⟩))
  refine ⟨fun b hb v => ⟨hi.inn b v, fun hl => hin b v hl hb⟩, fun b hb v => ⟨hi.out b v, ?_⟩, fun b hb => ?_⟩
  · rintro ⟨s, hs, hl⟩
    exact (liveChanged_false (hf b hb).1).2.1 v (((calcLiveOut_spec _ _ _).2 v).mpr ⟨s, hs, hin s v hl (hsucc b s hs)⟩)
  · have := liveChanged_false (hf b hb).2
    omega

/-! Termination -/

/-- The tables grow. -/
structure Grow (c : Cfg) (a : Analysis) (l : Live) : Prop where
  ninn : ∀ b, (l.inn b).Nodup
  nout : ∀ b, (l.out b).Nodup
  ginn : ∀ b, ∀ v ∈ l.inn b, v ∈ a.globals
  gout : ∀ b, ∀ v ∈ l.out b, v ∈ a.globals
  inn : ∀ b, ∀ v ∈ l.inn b, v ∈ calcLiveIn (a.use b) (a.defs b) (l.out b)
  out : ∀ b, ∀ v ∈ l.out b, v ∈ calcLiveOut c l.inn b

theorem grow_out {c : Cfg} {a : Analysis} {l : Live} (b : Blk) (h : Grow c a l) :
    Grow c a ⟨l.inn, upd l.out b (calcLiveOut c l.inn b)⟩ := by
  have hsub : ∀ x v, v ∈ l.out x → v ∈ upd l.out b (calcLiveOut c l.inn b) x := by
    intro x v hv
    by_cases hx : x = b
    · subst hx; simpa [upd] using h.out x v hv
    · simpa [upd, hx] using hv
  refine ⟨h.ninn, fun x => ?_, h.ginn, fun x v hv => ?_, fun x v hv => ?_, fun x v hv => ?_⟩
  · by_cases hx : x = b
    · subst hx; simpa [upd] using (calcLiveOut_spec c l.inn x).1
    · simpa [upd, hx] using h.nout x
  · by_cases hx : x = b
    · subst hx
      simp only [upd, if_true] at hv
      obtain ⟨s, _, hs⟩ := ((calcLiveOut_spec c l.inn x).2 v).mp hv
      exact h.ginn s v hs
    · simp only [upd, hx, if_false] at hv
      exact h.gout x v hv
  · rw [(calcLiveIn_spec _ _ _).2]
    rcases ((calcLiveIn_spec _ _ _).2 v).mp (h.inn x v hv) with h1 | h1
    · exact Or.inl h1
    · exact Or.inr ⟨hsub x v h1.1, h1.2⟩
  · by_cases hx : x = b
    · subst hx; simpa [upd] using hv
    · simp only [upd, hx, if_false] at hv
      exact h.out x v hv

theorem grow_in {c : Cfg} {a : Analysis} (u : UDSpec c a) {l : Live} (b : Blk) (h : Grow c a l) :
    Grow c a ⟨upd l.inn b (calcLiveIn (a.use b) (a.defs b) (l.out b)), l.out⟩ := by
  have hsub : ∀ x v, v ∈ l.inn x → v ∈ upd l.inn b (calcLiveIn (a.use b) (a.defs b) (l.out b)) x := by
    intro x v hv
    by_cases hx : x = b
    · subst hx; simpa [upd] using h.inn x v hv
    · simpa [upd, hx] using hv
  refine ⟨fun x => ?_, h.nout, fun x v hv => ?_, h.gout, fun x v hv => ?_, fun x v hv => ?_⟩
  · by_cases hx : x = b
    · subst hx; simpa [upd] using (calcLiveIn_spec _ _ _).1
    · simpa [upd, hx] using h.ninn x
  · by_cases hx : x = b
    · subst hx
      simp only [upd, if_true] at hv
      rcases ((calcLiveIn_spec _ _ _).2 v).mp hv with h1 | h1
      · exact (u.globals v).mpr ⟨x, (u.use x v).mp h1⟩
      · exact h.gout x v h1.1
    · simp only [upd, hx, if_false] at hv
      exact h.ginn x v hv
  · by_cases hx : x = b
    · subst hx; simpa [upd] using hv
    · simp only [upd, hx, if_false] at hv
      exact h.inn x v hv
  · rw [(calcLiveOut_spec _ _ _).2]
    obtain ⟨s, hs, hm⟩ := ((calcLiveOut_spec _ _ _).2 v).mp (h.out x v hv)
    exact ⟨s, hs, hsub s v hm⟩

/-- Sum of the sizes. -/
def liveSize (c : Cfg) (l : Live) : Nat := ((List.range c.length).map fun b => (l.inn b).length + (l.out b).length).sum

theorem sum_upd_gt {f g : Nat → Nat} {b : Nat} : ∀ {l : List Nat}, b ∈ l → (∀ y, f y ≤ g y) → f b < g b →
    (l.map f).sum < (l.map g).sum := by
  intro l
  induction l with
  | nil => intro h; simp at h
  | cons a l ih =>
    intro hb hle hlt
    have hle' : (l.map f).sum ≤ (l.map g).sum := by
      clear ih hb
      induction l with
      | nil => simp
      | cons y l ih => simp only [List.map_cons, List.sum_cons]; have := hle y; omega
    simp only [List.map_cons, List.sum_cons]
    rcases List.mem_cons.mp hb with rfl | h
    · omega
    · have := ih h hle hlt
      have := hle a
      omega

theorem liveStep_size {c : Cfg} {a : Analysis} (u : UDSpec c a) (hg : a.globals.length < 256) {b : Blk} (hb : b < c.length)
    {l : Live} (ch : Bool) (h : Grow c a l) : liveSize c l ≤ liveSize c (liveStep c a b l ch).1 ∧
    ((liveStep c a b l ch).2 = true → ch = true ∨ liveSize c l < liveSize c (liveStep c a b l ch).1) := by
  have hlen : ∀ l' : List Nat, l'.Nodup → (∀ v ∈ l', v ∈ a.globals) → l'.length < 256 := by
    intro l' hn hs
    have := (nodup_len l' a.globals hn hs).1
    omega
  have hbr : b ∈ List.range c.length := List.mem_range.mpr hb
  have ho : liveChanged (l.out b) (calcLiveOut c l.inn b) = true →
      liveSize c l < liveSize c ⟨l.inn, upd l.out b (calcLiveOut c l.inn b)⟩ := by
    intro hc
    have g' := grow_out b h
    have hlt := liveChanged_true hc (h.nout b) (h.out b) (hlen _ (calcLiveOut_spec c l.inn b).1 (by
      intro v hv; exact g'.gout b v (by simpa [upd] using hv)))
    refine sum_upd_gt hbr (fun y => ?_) (by simp [upd]; omega)
    by_cases hy : y = b
    · subst hy; simp [upd]; omega
    · simp [upd, hy]
  have hi : ∀ l : Live, Grow c a l → liveChanged (l.inn b) (calcLiveIn (a.use b) (a.defs b) (l.out b)) = true →
      liveSize c l < liveSize c ⟨upd l.inn b (calcLiveIn (a.use b) (a.defs b) (l.out b)), l.out⟩ := by
    intro l h hc
    have g' := grow_in u b h
    have hlt := liveChanged_true hc (h.ninn b) (h.inn b) (hlen _ (calcLiveIn_spec _ _ _).1 (by
      intro v hv; exact g'.ginn b v (by simpa [upd] using hv)))
    refine sum_upd_gt hbr (fun y => ?_) (by simp [upd]; omega)
    by_cases hy : y = b
    · subst hy; simp [upd]; omega
    · simp [upd, hy]
  simp only [liveStep]
  cases h1 : liveChanged (l.out b) (calcLiveOut c l.inn b) with
  | true =>
    simp only [if_true]
    have h1' := ho h1
    split
    · rename_i h2
      have := hi _ (grow_out b h) h2
      exact ⟨by simp only at this ⊢; omega, fun _ => Or.inr (by simp only at this ⊢; omega)⟩
    · exact ⟨by simp only; omega, fun _ => Or.inr h1'⟩
  | false =>
    simp only [Bool.false_eq_true, if_false]
    split
    · rename_i h2
      have := hi _ h h2
      exact ⟨by simp only at this ⊢; omega, fun _ => Or.inr this⟩
    · exact ⟨Nat.le_refl _, fun h => Or.inl h⟩

theorem livePass_size {c : Cfg} {a : Analysis} (u : UDSpec c a) (hg : a.globals.length < 256) : ∀ (bs : List Nat),
    (∀ b ∈ bs, b < c.length) → ∀ (l : Live) (ch : Bool), Grow c a l → Grow c a (livePass c a bs l ch).1 ∧
    liveSize c l ≤ liveSize c (livePass c a bs l ch).1 ∧
    ((livePass c a bs l ch).2 = true → ch = true ∨ liveSize c l < liveSize c (livePass c a bs l ch).1) := by
  intro bs
  induction bs with
  | nil => intro _ l ch h; exact ⟨h, Nat.le_refl _, fun h => Or.inl h⟩
  | cons b rest ih =>
    intro hs l ch h
    obtain ⟨s1, s2⟩ := liveStep_size u hg (hs b List.mem_cons_self) ch h
    obtain ⟨i1, i2, i3⟩ := ih (fun x hx => hs x (List.mem_cons_of_mem _ hx)) (liveStep c a b l ch).1 (liveStep c a b l ch).2
      (liveStep_inv (fun l hl => grow_out b hl) (fun l hl => grow_in u b hl) l ch h)
    simp only [livePass]
    refine ⟨i1, by omega, fun hc => ?_⟩
    rcases i3 hc with h1 | h1
    · rcases s2 h1 with h2 | h2
      · exact Or.inl h2
      · exact Or.inr (by omega)
    · exact Or.inr (by omega)

theorem liveSize_le {c : Cfg} {a : Analysis} {l : Live} (h : Grow c a l) : liveSize c l ≤ c.length * (2 * a.globals.length) := by
  have key : ∀ bs : List Nat, (bs.map fun b => (l.inn b).length + (l.out b).length).sum ≤ bs.length * (2 * a.globals.length) := by
    intro bs
    induction bs with
    | nil => simp
    | cons b bs ih =>
      have h1 := (nodup_len _ _ (h.ninn b) (h.ginn b)).1
      have h2 := (nodup_len _ _ (h.nout b) (h.gout b)).1
      simp only [List.map_cons, List.sum_cons, List.length_cons, Nat.add_mul, Nat.one_mul]
      omega
  have := key (List.range c.length)
  rwa [List.length_range] at this

theorem liveLoop_terminates {c : Cfg} {a : Analysis} (u : UDSpec c a) (hg : a.globals.length < 256) : ∀ n (l : Live),
    Grow c a l → c.length * (2 * a.globals.length) < n + liveSize c l → ∃ r, liveLoop c a n l = some r := by
  intro n
  induction n with
  | zero =>
    intro l h hn
    have := liveSize_le h
    omega
  | succ n ih =>
    intro l h hn
    simp only [liveLoop]
    obtain ⟨p1, p2, p3⟩ := livePass_size u hg (List.range c.length).reverse (fun b hb => by simpa using hb) l false h
    split
    · rename_i hc
      have := (p3 hc).resolve_left (by simp)
      exact ih _ p1 (by omega)
    · exact ⟨_, rfl⟩

end Nature.Ssa
