import Verif.Sched.Cover
import Verif.Sched.Trace
/-
The edges that are built, and the order of a segment.
-/
namespace Nature.Sched

theorem mem_addEdges {n : Nat} {ms : List Nat} {es : List (Nat × Nat)} {e : Nat × Nat} :
    e ∈ addEdges n ms es ↔ e ∈ es ∨ (e.2 = n ∧ e.1 ∈ ms) := by
  induction ms generalizing es with
  | nil => simp [addEdges]
  | cons m ms ih =>
    rw [addEdges, ih]
    obtain ⟨x, y⟩ := e
    by_cases h : (m, n) ∈ es
    · rw [if_pos h]
      constructor
      · rintro (h1 | ⟨h1, h2⟩)
        · exact Or.inl h1
        · exact Or.inr ⟨h1, List.mem_cons_of_mem _ h2⟩
      · rintro (h1 | ⟨h1, h2⟩)
        · exact Or.inl h1
        · rcases List.mem_cons.mp h2 with h2 | h2
          · refine Or.inl ?_
            dsimp only at h1 h2
            rw [h1, h2]; exact h
          · exact Or.inr ⟨h1, h2⟩
    · rw [if_neg h]
      simp only [List.mem_append, Prod.mk.injEq, List.mem_cons, List.not_mem_nil, or_false]
      constructor
      · rintro ((h1 | ⟨h1, h2⟩) | ⟨h1, h2⟩)
        · exact Or.inl h1
        · exact Or.inr ⟨h2, Or.inl h1⟩
        · exact Or.inr ⟨h1, Or.inr h2⟩
      · rintro (h1 | ⟨h1, h2 | h2⟩)
        · exact Or.inl (Or.inl h1)
        · exact Or.inl (Or.inr ⟨h2, h1⟩)
        · exact Or.inr ⟨h1, h2⟩

theorem addEdges_nodup {n : Nat} {ms : List Nat} {es : List (Nat × Nat)} (h : es.Nodup) : (addEdges n ms es).Nodup := by
  induction ms generalizing es with
  | nil => exact h
  | cons m ms ih =>
    rw [addEdges]
    apply ih
    by_cases hm : (m, n) ∈ es
    · rw [if_pos hm]; exact h
    · rw [if_neg hm]
      refine List.nodup_append.mpr ⟨h, by simp, ?_⟩
      intro x hx y hy e
      rw [List.mem_singleton] at hy
      subst hy; subst e
      exact hm hx

theorem build_nodup (id : Reg → Nat) : ∀ (ops : List Op) (n : Nat) (t : Tabs) (es : List (Nat × Nat)), es.Nodup → (build id n ops t es).Nodup := by
  intro ops
  induction ops with
  | nil => intro n t es h; exact h
  | cons op ops ih => intro n t es h; exact ih _ _ _ (addEdges_nodup h)

theorem mem_build_aux (id : Reg → Nat) (all : List Op) : ∀ (rest done : List Op), all = done ++ rest → ∀ (es : List (Nat × Nat)) (i j : Nat),
    (i, j) ∈ build id done.length rest (tabsAt id all done.length) es ↔ (i, j) ∈ es ∨ (done.length ≤ j ∧ Edge id all i j) := by
  intro rest
  induction rest with
  | nil =>
    intro done h es i j
    rw [build]
    constructor
    · exact Or.inl
    · rintro (h1 | ⟨h1, op, h2, _⟩)
      · exact h1
      · have := (List.getElem?_eq_some_iff.mp h2).1
        rw [h, List.append_nil] at this
        omega
  | cons op rest ih =>
    intro done h es i j
    have hop : all[done.length]? = some op := by rw [h]; simp
    have ht : (step id (tabsAt id all done.length) done.length op).2 = tabsAt id all (done ++ [op]).length := by
      rw [List.length_append, List.length_singleton, tabsAt, hop]
    have := ih (done ++ [op]) (by rw [h]; simp) (addEdges done.length (step id (tabsAt id all done.length) done.length op).1 es) i j
    rw [build, ht]
    rw [List.length_append, List.length_singleton] at this ⊢
    rw [this, mem_addEdges]
    dsimp only
    constructor
    · rintro ((h1 | ⟨h1, h2⟩) | ⟨h1, h2⟩)
      · exact Or.inl h1
      · exact Or.inr ⟨by omega, op, by rw [h1]; exact hop, by rw [h1]; exact h2⟩
      · exact Or.inr ⟨by omega, h2⟩
    · rintro (h1 | ⟨h1, h2⟩)
      · exact Or.inl (Or.inl h1)
      · by_cases e : j = done.length
        · subst e
          obtain ⟨op', h3, h4⟩ := h2
          rw [← get_unique all hop h3] at h4
          exact Or.inl (Or.inr ⟨rfl, h4⟩)
        · exact Or.inr ⟨by omega, h2⟩

theorem mem_build (id : Reg → Nat) (ops : List Op) (i j : Nat) : (i, j) ∈ build id 0 ops {} [] ↔ Edge id ops i j := by
  have := mem_build_aux id ops ops [] rfl [] i j
  simp only [List.length_nil, tabsAt, List.not_mem_nil, Nat.zero_le, true_and, false_or] at this
  exact this

/-- The order of the nodes of a segment: all of them, once, along the dependencies. -/
theorem order_ok (id : Reg → Nat) (ops : List Op) :
    ∃ r, order id ops = some r ∧ r.Nodup ∧ (∀ t, t ∈ r ↔ t < ops.length) ∧ ∀ i j, Path id ops i j → r.idxOf i < r.idxOf j := by
  have hf : ∀ i j, (i, j) ∈ build id 0 ops {} [] → i < j ∧ j < ops.length := by
    intro i j h
    have h := (mem_build id ops i j).mp h
    refine ⟨edge_lt id ops h, ?_⟩
    obtain ⟨op, h, _⟩ := h
    exact (List.getElem?_eq_some_iff.mp h).1
  obtain ⟨r, h1, h2, h3, h4⟩ := exec_ok (es := build id 0 ops {} []) (n := ops.length)
    (fun n => ⟨match ops[n]? with | some op => op.score | none => 0,
      priority (fun n => match ops[n]? with | some op => op.latency | none => 0) (build id 0 ops {} []) ops.length n,
      match ops[n]? with | some op => op.latency | none => 0⟩)
    (build_nodup id ops 0 {} [] List.nodup_nil) hf ops.length _ _ [] inv_init (by simp)
  have hlen : r.length = ops.length := by
    have hp : r.Perm (List.range ops.length) := by
      refine List.perm_iff_count.mpr fun a => ?_
      rw [h2.count, List.nodup_range.count]
      simp only [h3, List.mem_range]
    rw [hp.length_eq, List.length_range]
  refine ⟨r, ?_, h2, h3, ?_⟩
  · refine (?_ : (exec _ _ _ _ _ _).bind _ = some r)
    refine (congrArg (fun o => Option.bind o _) h1).trans ?_
    show (if r.length = ops.length then some r else none) = some r
    rw [if_pos hlen]
  · intro i j hp
    induction hp with
    | edge h => exact h4 _ _ ((mem_build id ops _ _).mpr h)
    | trans _ _ ih1 ih2 => exact Nat.lt_trans ih1 ih2

/-- Instructions that cannot be exchanged are connected. -/
theorem path_of_conflict {id : Reg → Nat} {ops : List Op} (hf : ∀ op ∈ ops, ¬ op.barrier) (hv : VarsOk ops) (hr : RegsOk id ops) (hm : MemOk ops)
    {i j : Nat} {a b : Op} (hij : i < j) (ha : ops[i]? = some a) (hb : ops[j]? = some b) (hc : ¬ Indep a b) : Path id ops i j := by
  have hma := List.mem_of_getElem? ha
  have hmb := List.mem_of_getElem? hb
  have hfr : Fresh id ops := hr.2.2
  -- a place both touch and one of them writes
  have hl : ∃ l, (l ∈ a.writes ∧ (l ∈ b.reads ∨ l ∈ b.writes)) ∨ (l ∈ b.writes ∧ l ∈ a.reads) := by
    refine Classical.byContradiction fun hn => hc ⟨?_, ?_⟩
    · intro l hl
      exact ⟨fun h => hn ⟨l, Or.inl ⟨hl, Or.inl h⟩⟩, fun h => hn ⟨l, Or.inl ⟨hl, Or.inr h⟩⟩⟩
    · intro l hl
      exact ⟨fun h => hn ⟨l, Or.inr ⟨hl, h⟩⟩, fun h => hn ⟨l, Or.inl ⟨h, Or.inr hl⟩⟩⟩
  obtain ⟨l, hl⟩ := hl
  cases l with
  | var v =>
    rcases hl with ⟨h1, h2 | h2⟩ | ⟨h1, h2⟩
    · exact path_var hv ⟨a, ha, (writes_var _ _).mp h1⟩ j b hij hb ((reads_var _ _).mp h2)
    · have := hv i j a b v hij ha hb h2 (Or.inr h1)
      exact path_var hv ⟨a, ha, (writes_var _ _).mp this.1⟩ j b hij hb ((reads_var _ _).mp this.2)
    · have := hv i j a b v hij ha hb h1 (Or.inl h2)
      exact path_var hv ⟨a, ha, (writes_var _ _).mp this.1⟩ j b hij hb ((reads_var _ _).mp this.2)
  | unit f u =>
    have hw : ∀ op : Op, Loc.unit f u ∈ op.writes → (∃ r, op.output = some (.reg r) ∧ r.unit = .unit f u) ∨
        (∃ rs r, op.first = some (.regs rs) ∧ r ∈ rs ∧ r.unit = .unit f u) := by
      intro op h
      rcases List.mem_append.mp h with h | h
      · split at h
        · rw [List.mem_singleton] at h; cases h
        · rename_i w he
          rw [List.mem_singleton] at h
          exact Or.inl ⟨w, he, h.symm⟩
        · rw [List.mem_singleton] at h; cases h
        · rw [List.mem_singleton] at h; cases h
        · rw [List.mem_singleton] at h; cases h
        · exact (List.not_mem_nil h).elim
      · split at h
        · rename_i rs he
          obtain ⟨r, h1, h2⟩ := List.mem_map.mp h
          exact Or.inr ⟨rs, r, he, h1, h2⟩
        · exact (List.not_mem_nil h).elim
    have hre : ∀ op ∈ ops, ∀ op' ∈ ops, Loc.unit f u ∈ op'.writes → Loc.unit f u ∈ op.reads → ∃ r ∈ op.inRegs, r.unit = .unit f u := by
      intro op hop op' hop' hw' h
      rcases List.mem_append.mp h with h | h
      · obtain ⟨o, ho, h⟩ := List.mem_flatMap.mp (List.mem_filter.mp h).1
        cases o with
        | reg r =>
          simp only [Operand.places, List.mem_singleton] at h
          exact ⟨r, List.mem_flatMap.mpr ⟨_, ho, by simp [Operand.inRegs]⟩, h.symm⟩
        | regs rs =>
          obtain ⟨r, h1, h2⟩ := List.mem_map.mp h
          exact ⟨r, List.mem_flatMap.mpr ⟨_, ho, h1⟩, h2⟩
        | ind b i =>
          exfalso
          refine hr.2.1 op hop op' hop' _ (List.mem_append_left _ ho) f u ?_ hw'
          rcases List.mem_append.mp h with h | h
          · exact h
          · rw [List.mem_singleton] at h; cases h
        | var v => simp [Operand.places] at h
        | sym _ => simp [Operand.places] at h
        | stack _ => simp [Operand.places] at h
        | imm _ => simp [Operand.places] at h
        | other => simp [Operand.places] at h
      · exfalso
        obtain ⟨o, ho, h⟩ := List.mem_flatMap.mp h
        exact hr.2.1 op hop op' hop' _ (List.mem_append_right _ ho) f u h hw'
    have hcl : ∀ op : Op, ∀ rs r, op.first = some (.regs rs) → r ∈ rs → r ∈ op.inRegs := by
      intro op rs r h1 h2
      refine List.mem_flatMap.mpr ⟨.regs rs, ?_, h2⟩
      simp [Op.inputs, h1]
    -- the number of the register
    have hid : ∀ op ∈ ops, ∀ op' ∈ ops, ∀ r s : Reg, (r ∈ op.inRegs ∨ op.output = some (.reg r)) → (s ∈ op'.inRegs ∨ op'.output = some (.reg s)) →
        r.unit = .unit f u → s.unit = .unit f u → id r = id s :=
      fun op h op' h' r s h1 h2 h3 h4 => hr.1 op h op' h' r s h1 h2 (h3.trans h4.symm)
    rcases hl with ⟨h1, h2⟩ | ⟨h1, h2⟩
    · rcases hw a h1 with ⟨r, h3, h4⟩ | ⟨rs, r, h3, h3', h4⟩
      · refine path_def (n := id r) ⟨a, ha, r, h3, rfl⟩ j b hij hb ?_
        rcases h2 with h2 | h2
        · obtain ⟨s, h5, h6⟩ := hre b hmb a hma h1 h2
          exact Or.inl ⟨s, h5, hid b hmb a hma s r (Or.inl h5) (Or.inr h3) h6 h4⟩
        · rcases hw b h2 with ⟨s, h5, h6⟩ | ⟨rs', s, h5, h5', h6⟩
          · exact Or.inr ⟨s, h5, hid b hmb a hma s r (Or.inr h5) (Or.inr h3) h6 h4⟩
          · exact Or.inl ⟨s, hcl b rs' s h5 h5', hid b hmb a hma s r (Or.inl (hcl b rs' s h5 h5')) (Or.inr h3) h6 h4⟩
      · have hua := hcl a rs r h3 h3'
        have hUa : UsesReg id a (id r) := ⟨r, hua, rfl⟩
        have hCa : ClobbersReg id a (id r) := ⟨rs, r, h3, h3', rfl⟩
        rcases h2 with h2 | h2
        · obtain ⟨s, h5, h6⟩ := hre b hmb a hma h1 h2
          exact path_clob hfr hij ha hb hUa ⟨s, h5, hid b hmb a hma s r (Or.inl h5) (Or.inl hua) h6 h4⟩ (Or.inl hCa)
        · rcases hw b h2 with ⟨s, h5, h6⟩ | ⟨rs', s, h5, h5', h6⟩
          · exact path_war hfr ha hUa j b hij hb ⟨s, h5, hid b hmb a hma s r (Or.inr h5) (Or.inl hua) h6 h4⟩
          · have hub := hcl b rs' s h5 h5'
            exact path_clob hfr hij ha hb hUa ⟨s, hub, hid b hmb a hma s r (Or.inl hub) (Or.inl hua) h6 h4⟩ (Or.inl hCa)
    · obtain ⟨r, h3, h4⟩ := hre a hma b hmb h1 h2
      rcases hw b h1 with ⟨s, h5, h6⟩ | ⟨rs', s, h5, h5', h6⟩
      · exact path_war hfr ha ⟨r, h3, rfl⟩ j b hij hb ⟨s, h5, hid b hmb a hma s r (Or.inr h5) (Or.inl h3) h6 h4⟩
      · have hub := hcl b rs' s h5 h5'
        have e := hid b hmb a hma s r (Or.inl hub) (Or.inl h3) h6 h4
        exact path_clob hfr hij ha hb ⟨r, h3, rfl⟩ ⟨s, hub, e⟩ (Or.inr ⟨rs', s, h5, h5', e⟩)
  | mem =>
    have hw : ∃ c ∈ ops, Loc.mem ∈ c.writes := by
      rcases hl with ⟨h1, _⟩ | ⟨h1, _⟩
      · exact ⟨a, hma, h1⟩
      · exact ⟨b, hmb, h1⟩
    have h1 : (a.memRead || a.memWrite) = true :=
      (memAcc_iff a (hf a hma)).mpr (hm hw a hma (by rcases hl with ⟨h1, _⟩ | ⟨_, h1⟩; exact Or.inr h1; exact Or.inl h1))
    have h2 : (b.memRead || b.memWrite) = true :=
      (memAcc_iff b (hf b hmb)).mpr (hm hw b hmb (by rcases hl with ⟨_, h1⟩ | ⟨h1, _⟩; exact h1; exact Or.inr h1))
    exact path_mem ⟨a, ha, h1⟩ j b hij hb h2

theorem map_get_range (ops : List Op) (d : Op) : (List.range ops.length).map (fun n => ops[n]?.getD d) = ops := by
  apply List.ext_getElem?
  intro k
  rw [List.getElem?_map]
  by_cases h : k < ops.length
  · rw [List.getElem?_range h]
    simp [h]
  · rw [List.getElem?_eq_none (by simp; omega), List.getElem?_eq_none (by omega)]
    rfl

theorem filterMap_get (ops : List Op) (d : Op) {r : List Nat} (h : ∀ t ∈ r, t < ops.length) :
    r.filterMap (fun n => ops[n]?) = r.map (fun n => ops[n]?.getD d) := by
  induction r with
  | nil => rfl
  | cons x xs ih =>
    have hx := h x List.mem_cons_self
    rw [List.filterMap_cons, List.map_cons, ih fun t ht => h t (List.mem_cons_of_mem _ ht)]
    simp [hx]

theorem perm_range {r : List Nat} {n : Nat} (h : r.Nodup) (hm : ∀ t, t ∈ r ↔ t < n) : r.Perm (List.range n) := by
  refine List.perm_iff_count.mpr fun a => ?_
  rw [h.count, List.nodup_range.count]
  simp only [hm, List.mem_range]

/-- A segment is scheduled, to a permutation of it. -/
theorem segment_perm (id : Reg → Nat) (ops : List Op) : ∃ r, segment id ops = some r ∧ r.Perm ops := by
  unfold segment
  by_cases h : ops.length ≤ 2
  · rw [if_pos h]; exact ⟨ops, rfl, List.Perm.refl _⟩
  · rw [if_neg h]
    obtain ⟨r, h1, h2, h3, _⟩ := order_ok id ops
    rw [h1]
    refine ⟨_, rfl, ?_⟩
    have d : Op := ⟨.nop, none, none, none, none, false, 0⟩
    dsimp only
    rw [filterMap_get ops d fun t ht => (h3 t).mp ht]
    have := (perm_range h2 h3).map (fun n => ops[n]?.getD d)
    rw [map_get_range] at this
    exact this

theorem sublist_range_lt {n i j : Nat} (h : List.Sublist [i, j] (List.range n)) : i < j := by
  have := List.pairwise_lt_range.sublist h
  simpa using this

theorem segment_run {V : Type} (m : Meaning V) (id : Reg → Nat) (ops : List Op) (hf : ∀ op ∈ ops, ¬ op.barrier)
    (hv : VarsOk ops) (hr : RegsOk id ops) (hm : MemOk ops) {r : List Op} (h : segment id ops = some r) (s : State V) :
    run m r s = run m ops s := by
  unfold segment at h
  by_cases hl : ops.length ≤ 2
  · rw [if_pos hl] at h; cases h; rfl
  · rw [if_neg hl] at h
    obtain ⟨o, h1, h2, h3, h4⟩ := order_ok id ops
    rw [h1] at h
    cases h
    have d : Op := ⟨.nop, none, none, none, none, false, 0⟩
    dsimp only
    rw [filterMap_get ops d fun t ht => (h3 t).mp ht]
    have hget : ∀ i, i < ops.length → ops[i]? = some (ops[i]?.getD d) := by
      intro i hi
      rw [List.getElem?_eq_getElem hi]; rfl
    have := reorder m (fun n => ops[n]?.getD d) o (List.range ops.length) List.nodup_range h2 (fun x => by rw [h3, List.mem_range])
      (fun i hi => hf _ (List.mem_of_getElem? (hget i (List.mem_range.mp hi))))
      (by
        intro i j hs hc
        have hj : j < ops.length := List.mem_range.mp (hs.subset (by simp))
        have hi : i < ops.length := List.mem_range.mp (hs.subset (by simp))
        exact h4 i j (path_of_conflict hf hv hr hm (sublist_range_lt hs) (hget i hi) (hget j hj) hc)) s
    rw [map_get_range] at this
    exact this.symm

end Nature.Sched
