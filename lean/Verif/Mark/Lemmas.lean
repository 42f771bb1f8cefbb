import Verif.Mark.Spec
import Verif.ArenaBits.Props
namespace Nature.Mark
open Nature.ArenaBits (readKind scanKind)

theorem objStart_le {s : SpanInfo} {a : Nat} (hb : s.base ≤ a) (hs : 0 < s.objSize) :
    objStart s a ≤ a ∧ a < objStart s a + s.objSize := by
  unfold objStart
  have h1 := Nat.div_mul_le_self (a - s.base) s.objSize
  have h2 := Nat.lt_div_mul_add (a := a - s.base) hs
  omega

theorem index_lt {h : Heap} {objs : List Nat} (wf : WF h objs) {a : Nat} {s : SpanInfo}
    (hs : h.spanOf a = some s) : (a - s.base) / s.objSize < s.objCount := by
  have h1 := wf.inside a s hs
  exact Nat.div_lt_of_lt_mul (by rw [Nat.mul_comm]; omega)

theorem pointsInto_objStart {h : Heap} {objs : List Nat} (wf : WF h objs) {a : Nat} {s : SpanInfo}
    (hs : h.spanOf a = some s) : PointsInto h a (objStart s a) s := by
  have := objStart_le (wf.inside a s hs).1 (wf.size a s hs)
  exact ⟨hs, (a - s.base) / s.objSize, index_lt wf hs, rfl, this.1, this.2⟩

theorem pointsInto_unique {h : Heap} {a o : Nat} {s : SpanInfo} (hp : PointsInto h a o s) :
    h.spanOf a = some s ∧ o = objStart s a := by
  obtain ⟨hs, k, _, hk, h1, h2⟩ := hp
  refine ⟨hs, ?_⟩
  have hpos : 0 < s.objSize := by omega
  have hdiv : (a - s.base) / s.objSize = k := by
    rw [Nat.div_eq_iff hpos]
    have : k * s.objSize ≤ a - s.base := by omega
    rw [Nat.mul_comm] at this
    constructor <;> (try rw [Nat.mul_comm s.objSize k] at *) <;> omega
  unfold objStart
  rw [hdiv]; exact hk

/-- The object that starts at `objStart s a` belongs to the span of `a`, and starts at itself. -/
theorem self_points {h : Heap} {objs : List Nat} (wf : WF h objs) {a : Nat} {s : SpanInfo}
    (hs : h.spanOf a = some s) : PointsInto h (objStart s a) (objStart s a) s := by
  refine ⟨wf.same a s hs, (a - s.base) / s.objSize, index_lt wf hs, rfl, Nat.le_refl _, ?_⟩
  have := wf.size a s hs; omega

theorem scanObj_spec {h : Heap} {obj : Nat} : ∀ (n stop temp : Nat), stop - temp ≤ n →
    (∀ k, temp + 8 * k < stop → ∃ v, scanKind h.kinds obj (temp + 8 * k) = some v) →
    ∃ out, scanObj h obj stop temp = some out ∧
      ∀ v, v ∈ out ↔ ∃ k, temp + 8 * k < stop ∧ scanKind h.kinds obj (temp + 8 * k) = some true ∧
        (h.spanOf (h.load (temp + 8 * k))).isSome = true ∧ v = h.load (temp + 8 * k) := by
  intro n
  induction n with
  | zero =>
    intro stop temp hn _
    refine ⟨[], by rw [scanObj, if_neg (by omega)], fun v => ?_⟩
    simp only [List.not_mem_nil, false_iff, not_exists]
    rintro k ⟨hk, _⟩; omega
  | succ n ih =>
    intro stop temp hn hk
    by_cases hlt : temp < stop
    · obtain ⟨v0, hv0⟩ := hk 0 (by omega)
      simp only [Nat.mul_zero, Nat.add_zero] at hv0
      have hshift : ∀ k, temp + 8 + 8 * k = temp + 8 * (k + 1) := by intro k; omega
      obtain ⟨rest, hr, hmem⟩ := ih stop (temp + 8) (by omega) (by
        intro k hk'
        rw [hshift] at hk' ⊢
        exact hk (k + 1) hk')
      simp only [hshift] at hmem
      rw [scanObj, if_pos hlt, hv0]
      simp only [hr]
      by_cases hc : (v0 && (h.spanOf (h.load temp)).isSome) = true
      · rw [if_pos hc]
        refine ⟨_, rfl, fun v => ?_⟩
        rw [List.mem_cons, hmem]
        constructor
        · rintro (rfl | ⟨k, hk⟩)
          · rw [Bool.and_eq_true] at hc
            refine ⟨0, by omega, ?_, ?_, rfl⟩
            · show scanKind h.kinds obj temp = some true
              rw [hv0, hc.1]
            · exact hc.2
          · exact ⟨k + 1, hk⟩
        · rintro ⟨k, hk⟩
          cases k with
          | zero => exact Or.inl hk.2.2.2
          | succ k => exact Or.inr ⟨k, hk⟩
      · rw [if_neg hc]
        refine ⟨_, rfl, fun v => ?_⟩
        rw [hmem]
        constructor
        · rintro ⟨k, hk⟩; exact ⟨k + 1, hk⟩
        · rintro ⟨k, hk⟩
          cases k with
          | zero =>
            exfalso; apply hc
            obtain ⟨_, h2, h3, _⟩ := hk
            simp only [Nat.mul_zero, Nat.add_zero] at h2 h3
            rw [hv0] at h2
            rw [Bool.and_eq_true]
            exact ⟨Option.some.inj h2, h3⟩
          | succ k => exact ⟨k, hk⟩
    · refine ⟨[], by rw [scanObj, if_neg hlt], fun v => ?_⟩
      simp only [List.not_mem_nil, false_iff, not_exists]
      rintro k ⟨hk, _⟩; omega

theorem scanKind_eq {h : Heap} {objs : List Nat} (wf : WF h objs) {a : Nat} {s : SpanInfo}
    (hs : h.spanOf a = some s) (hp : s.hasPtr = true) {k : Nat} (hk : 8 * k < s.objSize) :
    scanKind h.kinds (objStart s a) (objStart s a + 8 * k) = readKind h.kinds (objStart s a + 8 * k) := by
  obtain ⟨h1, h2, _⟩ := wf.kinds a s hs hp k hk
  exact ArenaBits.C09_scan_partial h.kinds _ _ h1 (Nat.le_add_right _ _) h2

/-- What handling an address does. -/
theorem handle_spec {h : Heap} {objs : List Nat} (wf : WF h objs) {marked : List Nat} {a : Nat} {s : SpanInfo}
    (hs : h.spanOf a = some s) :
    (objStart s a ∈ marked ∧ handleGcPtr h marked a = some (marked, [])) ∨
    (objStart s a ∉ marked ∧ ∃ pushed, handleGcPtr h marked a = some (objStart s a :: marked, pushed) ∧
      (∀ v ∈ pushed, (h.spanOf v).isSome = true) ∧
      ∀ o', Field h (objStart s a) o' ↔ ∃ v ∈ pushed, ∃ s', PointsInto h v o' s') := by
  have hz : s.objSize ≠ 0 := Nat.pos_iff_ne_zero.mp (wf.size a s hs)
  rw [handleGcPtr, hs]
  simp only
  rw [if_neg hz]
  by_cases hm : objStart s a ∈ marked
  · left; exact ⟨hm, by rw [if_pos hm]⟩
  · right
    refine ⟨hm, ?_⟩
    rw [if_neg hm]
    have hself := self_points wf hs
    have huniq : ∀ s2, PointsInto h (objStart s a) (objStart s a) s2 → s2 = s := by
      intro s2 h2
      have := h2.1; rw [wf.same a s hs] at this
      exact (Option.some.inj this).symm
    by_cases hp : s.hasPtr = true
    · rw [if_pos hp]
      obtain ⟨out, ho, hmem⟩ := scanObj_spec (h := h) (obj := objStart s a) _ (objStart s a + s.objSize) (objStart s a)
        (Nat.le_refl _) (by
          intro k hk
          rw [scanKind_eq wf hs hp (by omega)]
          have := (wf.kinds a s hs hp k (by omega)).2.2
          exact Option.isSome_iff_exists.mp this)
      rw [ho]
      refine ⟨out, rfl, fun v hv => ?_, fun o' => ?_⟩
      · obtain ⟨k, _, _, h3, rfl⟩ := (hmem v).mp hv
        exact h3
      · constructor
        · rintro ⟨s1, s', k, hp1, _, hk, hkind, hpt⟩
          have := huniq s1 hp1; subst this
          refine ⟨_, (hmem _).mpr ⟨k, by omega, ?_, ?_, rfl⟩, s', hpt⟩
          · rw [scanKind_eq wf hs hp hk]; exact hkind
          · rw [hpt.1]; rfl
        · rintro ⟨v, hv, s', hpt⟩
          obtain ⟨k, h1, h2, _, rfl⟩ := (hmem v).mp hv
          rw [scanKind_eq wf hs hp (by omega)] at h2
          exact ⟨s, s', k, hself, hp, by omega, h2, hpt⟩
    · rw [if_neg hp]
      refine ⟨[], rfl, by simp, fun o' => ?_⟩
      constructor
      · rintro ⟨s1, s', k, hp1, hp2, _⟩
        have := huniq s1 hp1; subst this
        exact absurd hp2 hp
      · rintro ⟨v, hv, _⟩; simp at hv

/-- The invariant of the mark phase. -/
structure Inv (h : Heap) (roots : List Nat) (objs : List Nat) (s : St) : Prop where
  pend : ∀ a ∈ s.pending, (h.spanOf a).isSome = true
  preach : ∀ a ∈ s.pending, ∀ o sp, PointsInto h a o sp → Reach h roots o
  mreach : ∀ o ∈ s.marked, Reach h roots o
  nodup : s.marked.Nodup
  mobjs : ∀ o ∈ s.marked, o ∈ objs
  rootsIn : ∀ a ∈ roots, ∀ o sp, PointsInto h a o sp → o ∈ s.marked ∨ ∃ p ∈ s.pending, ∃ s', PointsInto h p o s'
  closed : ∀ o ∈ s.marked, ∀ o', Field h o o' → o' ∈ s.marked ∨ ∃ p ∈ s.pending, ∃ s', PointsInto h p o' s'

theorem init_inv {h : Heap} {roots objs : List Nat} (hr : ∀ a ∈ roots, (h.spanOf a).isSome = true) :
    Inv h roots objs ⟨[], roots⟩ :=
  ⟨hr, fun a ha o sp hp => Reach.root a o sp ha hp, by simp, List.nodup_nil, by simp,
    fun a ha o sp hp => Or.inr ⟨a, ha, sp, hp⟩, by simp⟩

theorem step_inv {h : Heap} {roots objs : List Nat} (wf : WF h objs) {s s' : St} (hi : Inv h roots objs s)
    (hst : Step h s s') : Inv h roots objs s' := by
  cases hst with
  | serve l1 l2 a marked marked' pushed he =>
    have hamem : a ∈ l1 ++ a :: l2 := by simp
    obtain ⟨sp, hsp⟩ := Option.isSome_iff_exists.mp (hi.pend a hamem)
    have hsub : ∀ x ∈ l1 ++ l2, x ∈ l1 ++ a :: l2 := by
      intro x hx
      rcases List.mem_append.mp hx with h1 | h1
      · exact List.mem_append_left _ h1
      · exact List.mem_append_right _ (List.mem_cons_of_mem _ h1)
    have hsup : ∀ x ∈ l1 ++ a :: l2, x = a ∨ x ∈ l1 ++ l2 := by
      intro x hx
      rcases List.mem_append.mp hx with h1 | h1
      · exact Or.inr (List.mem_append_left _ h1)
      · rcases List.mem_cons.mp h1 with h1 | h1
        · exact Or.inl h1
        · exact Or.inr (List.mem_append_right _ h1)
    have hreach : Reach h roots (objStart sp a) := hi.preach a hamem _ sp (pointsInto_objStart wf hsp)
    have hself : ∀ o s', PointsInto h a o s' → o = objStart sp a := by
      intro o s' hp
      obtain ⟨h1, h2⟩ := pointsInto_unique hp
      rw [hsp] at h1
      cases h1
      exact h2
    rcases handle_spec wf (marked := marked) hsp with ⟨hm, heq⟩ | ⟨hm, pushed2, heq, hpv, hfield⟩
    · rw [heq] at he
      cases he
      have hmove : ∀ o, (∃ p ∈ l1 ++ a :: l2, ∃ s', PointsInto h p o s') →
          o ∈ marked ∨ ∃ p ∈ [] ++ (l1 ++ l2), ∃ s', PointsInto h p o s' := by
        rintro o ⟨p, hp, s', hpt⟩
        rcases hsup p hp with rfl | hp'
        · left; rw [hself o s' hpt]; exact hm
        · exact Or.inr ⟨p, hp', s', hpt⟩
      exact ⟨fun x hx => hi.pend x (hsub x hx), fun x hx => hi.preach x (hsub x hx), hi.mreach, hi.nodup, hi.mobjs,
        fun x hx o sp' hp => (hi.rootsIn x hx o sp' hp).elim Or.inl (hmove o),
        fun o ho o' hf => (hi.closed o ho o' hf).elim Or.inl (hmove o')⟩
    · rw [heq] at he
      cases he
      have hmove : ∀ o, (o ∈ marked ∨ ∃ p ∈ l1 ++ a :: l2, ∃ s', PointsInto h p o s') →
          o ∈ objStart sp a :: marked ∨ ∃ p ∈ pushed ++ (l1 ++ l2), ∃ s', PointsInto h p o s' := by
        rintro o (ho | ⟨p, hp, s', hpt⟩)
        · exact Or.inl (List.mem_cons_of_mem _ ho)
        · rcases hsup p hp with rfl | hp'
          · left; rw [hself o s' hpt]; exact List.mem_cons_self
          · exact Or.inr ⟨p, List.mem_append_right _ hp', s', hpt⟩
      refine ⟨fun x hx => ?_, fun x hx o s' hp => ?_, fun o ho => ?_, ?_, fun o ho => ?_,
        fun x hx o sp' hp => hmove o (hi.rootsIn x hx o sp' hp), fun o ho o' hf => ?_⟩
      · rcases List.mem_append.mp hx with h1 | h1
        · exact hpv x h1
        · exact hi.pend x (hsub x h1)
      · rcases List.mem_append.mp hx with h1 | h1
        · exact Reach.field _ _ hreach ((hfield o).mpr ⟨x, h1, s', hp⟩)
        · exact hi.preach x (hsub x h1) o s' hp
      · rcases List.mem_cons.mp ho with rfl | ho
        · exact hreach
        · exact hi.mreach o ho
      · exact List.nodup_cons.mpr ⟨hm, hi.nodup⟩
      · rcases List.mem_cons.mp ho with rfl | ho
        · exact wf.objs a sp hsp
        · exact hi.mobjs o ho
      · rcases List.mem_cons.mp ho with rfl | ho
        · obtain ⟨v, hv, s', hpt⟩ := (hfield o').mp hf
          exact Or.inr ⟨v, List.mem_append_left _ hv, s', hpt⟩
        · exact hmove o' (hi.closed o ho o' hf)

theorem steps_inv {h : Heap} {roots objs : List Nat} (wf : WF h objs) {s s' : St} (hi : Inv h roots objs s)
    (hst : Steps h s s') : Inv h roots objs s' := by
  induction hst with
  | refl => exact hi
  | tail b c _ h2 ih => exact step_inv wf ih h2

theorem len_le {α : Type} [DecidableEq α] : ∀ {l1 l2 : List α}, l1.Nodup → (∀ x ∈ l1, x ∈ l2) → l1.length ≤ l2.length
  | [], _, _, _ => Nat.zero_le _
  | a :: t, l2, hn, hs => by
    rw [List.nodup_cons] at hn
    have ha : a ∈ l2 := hs a List.mem_cons_self
    have h1 : t.length ≤ (l2.erase a).length := by
      apply len_le hn.2
      intro x hx
      have hne : x ≠ a := by intro e; subst e; exact hn.1 hx
      exact (List.mem_erase_of_ne hne).mpr (hs x (List.mem_cons_of_mem _ hx))
    rw [List.length_erase_of_mem ha] at h1
    have : 0 < l2.length := List.length_pos_of_mem ha
    simp only [List.length_cons]; omega

/-- Every step either marks a new object or shortens the work list. -/
theorem step_measure {h : Heap} {objs roots : List Nat} (wf : WF h objs) {s s' : St} (hi : Inv h roots objs s)
    (hst : Step h s s') :
    s'.marked.length = s.marked.length + 1 ∨
    (s'.marked.length = s.marked.length ∧ s'.pending.length < s.pending.length) := by
  cases hst with
  | serve l1 l2 a marked marked' pushed he =>
    obtain ⟨sp, hsp⟩ := Option.isSome_iff_exists.mp (hi.pend a (by simp))
    rcases handle_spec wf (marked := marked) hsp with ⟨hm, heq⟩ | ⟨hm, pushed2, heq, _⟩
    · rw [heq] at he; cases he
      right; simp
    · rw [heq] at he; cases he
      left; simp

end Nature.Mark
