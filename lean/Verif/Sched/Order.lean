import Verif.Sched.Model
/-
The loop that picks the nodes gives an order that respects the edges.
-/
namespace Nature.Sched

def cntSpec (es : List (Nat × Nat)) (res : List Nat) (t : Nat) : Nat :=
  (es.filter fun e => decide (e.2 = t ∧ e.1 ∉ res)).length

theorem cntSpec_nil (es : List (Nat × Nat)) (t : Nat) : cntSpec es [] t = depCount es t := by
  simp [cntSpec, depCount]

theorem cntSpec_append {es : List (Nat × Nat)} {res : List Nat} {b t : Nat} (hn : es.Nodup) (hb : b ∉ res) :
    cntSpec es res t = cntSpec es (res ++ [b]) t + (if (b, t) ∈ es then 1 else 0) := by
  induction es with
  | nil => simp [cntSpec]
  | cons e es ih =>
    have ih := ih (List.nodup_cons.mp hn).2
    have he := (List.nodup_cons.mp hn).1
    obtain ⟨x, y⟩ := e
    simp only [cntSpec, List.filter_cons] at ih ⊢
    by_cases hy : y = t
    · subst hy
      by_cases hx : x = b
      · subst hx
        have h0 : ((x, y) ∈ es) = False := by simp [he]
        simp only [h0, if_false, Nat.add_zero] at ih
        simp [hb] at ih ⊢
        omega
      · have : ((b, y) ∈ (x, y) :: es) = ((b, y) ∈ es) := by
          simp only [List.mem_cons, Prod.mk.injEq, and_true, eq_iff_iff]
          constructor
          · rintro (h | h)
            · exact (hx h.symm).elim
            · exact h
          · exact Or.inr
        simp only [this]
        by_cases hr : x ∈ res
        · simpa [hr, hx] using ih
        · simp [hr, hx] at ih ⊢
          omega
    · have : ((b, t) ∈ (x, y) :: es) = ((b, t) ∈ es) := by
        simp only [List.mem_cons, Prod.mk.injEq, eq_iff_iff]
        constructor
        · rintro (h | h)
          · exact (hy h.2.symm).elim
          · exact h
        · exact Or.inr
      simp only [this]
      simpa [hy] using ih

theorem mem_succs {es : List (Nat × Nat)} {b t : Nat} : t ∈ succs es b ↔ (b, t) ∈ es := by
  simp only [succs, List.mem_map, List.mem_filter, decide_eq_true_eq]
  constructor
  · rintro ⟨⟨x, y⟩, ⟨h, rfl⟩, rfl⟩; exact h
  · intro h; exact ⟨(b, t), ⟨h, rfl⟩, rfl⟩

theorem succs_nodup {es : List (Nat × Nat)} (h : es.Nodup) (b : Nat) : (succs es b).Nodup := by
  induction es with
  | nil => simp [succs]
  | cons e es ih =>
    have ih := ih (List.nodup_cons.mp h).2
    have he := (List.nodup_cons.mp h).1
    obtain ⟨x, y⟩ := e
    simp only [succs, List.filter_cons] at ih ⊢
    by_cases hx : x = b
    · subst hx
      simp only [decide_true, if_true, List.map_cons, List.nodup_cons]
      exact ⟨fun hm => he (mem_succs.mp hm), ih⟩
    · simpa [hx] using ih

theorem release_eq {ss : List Nat} (h : ss.Nodup) (cnt : Nat → Nat) (ready : List Nat) :
    release ss cnt ready = (ready ++ ss.filter (fun x => decide (cnt x - 1 = 0)), fun x => if x ∈ ss then cnt x - 1 else cnt x) := by
  induction ss generalizing cnt ready with
  | nil => simp [release]
  | cons s ss ih =>
    obtain ⟨h1, h2⟩ := List.nodup_cons.mp h
    rw [release, ih h2]
    have hf : (ss.filter fun x => decide ((if x = s then cnt s - 1 else cnt x) - 1 = 0)) = ss.filter fun x => decide (cnt x - 1 = 0) := by
      apply List.filter_congr
      intro x hx
      have : x ≠ s := fun e => h1 (e ▸ hx)
      simp [this]
    refine Prod.ext ?_ ?_
    · simp only [hf, if_true, List.filter_cons]
      by_cases h0 : cnt s - 1 = 0 <;> simp [h0]
    · funext x
      simp only [List.mem_cons]
      by_cases hx : x = s
      · subst hx; simp [h1]
      · simp [hx]

theorem best_mem (rk : Nat → Rank) (b : Nat) (l : List Nat) : best rk b l ∈ b :: l := by
  induction l generalizing b with
  | nil => simp [best]
  | cons c cs ih =>
    rw [best]
    have := ih (if less rk c b then c else b)
    simp only [List.mem_cons] at this ⊢
    rcases this with h | h
    · by_cases hl : less rk c b = true
      · rw [if_pos hl] at h ⊢; exact Or.inr (Or.inl h)
      · rw [if_neg hl] at h ⊢; exact Or.inl h
    · exact Or.inr (Or.inr h)

/-- The state of the loop. -/
structure Inv (es : List (Nat × Nat)) (n : Nat) (ready : List Nat) (cnt : Nat → Nat) (res : List Nat) : Prop where
  hc : ∀ t, cnt t = cntSpec es res t
  nodup : ready.Nodup
  hr : ∀ t, t ∈ ready ↔ t < n ∧ t ∉ res ∧ cnt t = 0
  rnodup : res.Nodup
  bound : ∀ t ∈ res, t < n
  ord : ∀ i j, (i, j) ∈ es → j ∈ res → i ∈ res ∧ res.idxOf i < res.idxOf j

theorem filter_eq_nil_of_len {α : Type} {l : List α} {p : α → Bool} (h : (l.filter p).length = 0) : ∀ x ∈ l, p x = false := by
  intro x hx
  cases hp : p x with
  | false => rfl
  | true =>
    have : x ∈ l.filter p := List.mem_filter.mpr ⟨hx, hp⟩
    rw [List.length_eq_zero_iff.mp h] at this
    exact (List.not_mem_nil this).elim

theorem Inv.step {es : List (Nat × Nat)} {n : Nat} {ready : List Nat} {cnt : Nat → Nat} {res : List Nat} {b : Nat}
    (hn : es.Nodup) (hf : ∀ i j, (i, j) ∈ es → i < j ∧ j < n) (I : Inv es n ready cnt res) (hb : b ∈ ready) :
    Inv es n (release (succs es b) cnt (ready.erase b)).1 (release (succs es b) cnt (ready.erase b)).2 (res ++ [b]) := by
  rw [release_eq (succs_nodup hn b)]
  have hb' := (I.hr b).mp hb
  have hcnt : ∀ t, (if t ∈ succs es b then cnt t - 1 else cnt t) = cntSpec es (res ++ [b]) t := by
    intro t
    have h1 := cntSpec_append (t := t) hn hb'.2.1
    rw [I.hc t]
    by_cases h : (b, t) ∈ es
    · rw [if_pos (mem_succs.mpr h)]; rw [if_pos h] at h1; omega
    · rw [if_neg (fun h' => h (mem_succs.mp h'))]; rw [if_neg h] at h1; omega
  -- a successor had a count, so it is not ready and not done
  have hpos : ∀ t, (b, t) ∈ es → 0 < cnt t := by
    intro t h
    have h1 := cntSpec_append (t := t) hn hb'.2.1
    rw [if_pos h] at h1
    have := I.hc t
    omega
  have hnres : ∀ t, (b, t) ∈ es → t ∉ res := fun t h hr => hb'.2.1 (I.ord b t h hr).1
  have hnb : (b, b) ∉ es := fun h => by have := (hf b b h).1; omega
  have herase : ∀ t, t ∈ ready.erase b ↔ t ∈ ready ∧ t ≠ b := by
    intro t
    rw [I.nodup.mem_erase_iff]
    exact and_comm
  refine ⟨hcnt, ?_, ?_, ?_, ?_, ?_⟩
  · refine List.nodup_append.mpr ⟨I.nodup.erase b, (succs_nodup hn b).filter _, ?_⟩
    intro x hx y hy e
    subst e
    have h1 := mem_succs.mp (List.mem_filter.mp hy).1
    have h2 := (I.hr x).mp ((herase x).mp hx).1
    have := hpos x h1
    omega
  · intro t
    rw [List.mem_append, herase, List.mem_filter, mem_succs, decide_eq_true_eq, I.hr]
    dsimp only
    simp only [List.mem_append, List.mem_singleton]
    constructor
    · rintro (⟨⟨h1, h2, h3⟩, h4⟩ | ⟨h1, h2⟩)
      · refine ⟨h1, ?_, ?_⟩
        · rintro (h | h)
          · exact h2 h
          · exact h4 h
        · by_cases hs : t ∈ succs es b
          · have := hpos t (mem_succs.mp hs); omega
          · rw [if_neg hs]; exact h3
      · refine ⟨(hf b t h1).2, ?_, ?_⟩
        · rintro (h | h)
          · exact hnres t h1 h
          · subst h; exact hnb h1
        · rw [if_pos (mem_succs.mpr h1)]; exact h2
    · rintro ⟨h1, h2, h3⟩
      by_cases hs : (b, t) ∈ es
      · rw [if_pos (mem_succs.mpr hs)] at h3
        exact Or.inr ⟨hs, h3⟩
      · rw [if_neg (fun h => hs (mem_succs.mp h))] at h3
        exact Or.inl ⟨⟨h1, fun h => h2 (Or.inl h), h3⟩, fun h => h2 (Or.inr h)⟩
  · refine List.nodup_append.mpr ⟨I.rnodup, by simp, ?_⟩
    intro x hx y hy e
    simp only [List.mem_singleton] at hy
    subst hy; subst e
    exact hb'.2.1 hx
  · intro t ht
    rcases List.mem_append.mp ht with h | h
    · exact I.bound t h
    · rw [List.mem_singleton] at h; subst h; exact hb'.1
  · intro i j he hj
    rcases List.mem_append.mp hj with h | h
    · obtain ⟨h1, h2⟩ := I.ord i j he h
      refine ⟨List.mem_append_left _ h1, ?_⟩
      rw [List.idxOf_append, List.idxOf_append, if_pos h1, if_pos h]
      exact h2
    · rw [List.mem_singleton] at h
      subst h
      have h0 : cntSpec es res j = 0 := by rw [← I.hc]; exact hb'.2.2
      have := filter_eq_nil_of_len h0 (i, j) he
      simp only [true_and, decide_eq_false_iff_not, Decidable.not_not] at this
      refine ⟨List.mem_append_left _ this, ?_⟩
      rw [List.idxOf_append, List.idxOf_append, if_pos this, if_neg hb'.2.1]
      have := List.idxOf_lt_length_of_mem this
      omega

/-- With unscheduled nodes left, one is ready. -/
theorem Inv.progress {es : List (Nat × Nat)} {n : Nat} {cnt : Nat → Nat} {res : List Nat}
    (hf : ∀ i j, (i, j) ∈ es → i < j ∧ j < n) (I : Inv es n [] cnt res) : ∀ t, t < n → t ∈ res := by
  intro t
  induction t using Nat.strongRecOn with
  | _ t ih =>
    intro ht
    by_cases h : t ∈ res
    · exact h
    · exfalso
      have h0 : cnt t = 0 := by
        rw [I.hc, cntSpec, List.length_eq_zero_iff, List.filter_eq_nil_iff]
        rintro ⟨x, y⟩ he hp
        simp only [decide_eq_true_eq] at hp
        obtain ⟨rfl, hx⟩ := hp
        have := hf x y he
        exact hx (ih x this.1 (by omega))
      exact List.not_mem_nil ((I.hr t).mpr ⟨ht, h, h0⟩)

theorem len_le_of_nodup {l : List Nat} {n : Nat} (h : l.Nodup) (hb : ∀ x ∈ l, x < n) : l.length ≤ n := by
  induction n generalizing l with
  | zero =>
    cases l with
    | nil => simp
    | cons x xs => have := hb x List.mem_cons_self; omega
  | succ n ih =>
    have h1 := ih (l := l.erase n) (h.erase n) (by
      intro x hx
      have := (h.mem_erase_iff).mp hx
      have := hb x this.2
      omega)
    have := List.length_erase (a := n) (l := l)
    split at this <;> omega

theorem exec_ok {es : List (Nat × Nat)} {n : Nat} (rk : Nat → Rank) (hn : es.Nodup) (hf : ∀ i j, (i, j) ∈ es → i < j ∧ j < n) :
    ∀ (fuel : Nat) (ready : List Nat) (cnt : Nat → Nat) (res : List Nat), Inv es n ready cnt res → fuel + res.length = n →
      ∃ r, exec rk es fuel ready cnt res = some r ∧ r.Nodup ∧ (∀ t, t ∈ r ↔ t < n) ∧
        ∀ i j, (i, j) ∈ es → r.idxOf i < r.idxOf j := by
  intro fuel
  have hfin : ∀ cnt res, Inv es n [] cnt res → res.Nodup ∧ (∀ t, t ∈ res ↔ t < n) ∧ ∀ i j, (i, j) ∈ es → res.idxOf i < res.idxOf j :=
    fun cnt res I => ⟨I.rnodup, fun t => ⟨I.bound t, I.progress hf t⟩, fun i j h => (I.ord i j h (I.progress hf j (hf i j h).2)).2⟩
  induction fuel with
  | zero =>
    intro ready cnt res I hl
    cases ready with
    | nil => exact ⟨res, by simp [exec], hfin cnt res I⟩
    | cons r rs =>
      exfalso
      have hr := (I.hr r).mp (List.mem_cons_self)
      have : (r :: res).Nodup := List.nodup_cons.mpr ⟨hr.2.1, I.rnodup⟩
      have := len_le_of_nodup this (n := n) (by
        intro x hx
        rcases List.mem_cons.mp hx with rfl | h
        · exact hr.1
        · exact I.bound x h)
      simp only [List.length_cons] at this
      omega
  | succ f ih =>
    intro ready cnt res I hl
    cases ready with
    | nil => exact ⟨res, by simp [exec], hfin cnt res I⟩
    | cons r rs =>
      rw [exec]
      exact ih _ _ _ (I.step hn hf (best_mem rk r rs)) (by simp; omega)

theorem inv_init {es : List (Nat × Nat)} {n : Nat} :
    Inv es n ((List.range n).filter fun t => decide (depCount es t = 0)) (depCount es) [] := by
  refine ⟨fun t => (cntSpec_nil es t).symm, List.nodup_range.filter _, ?_, by simp, by simp, by simp⟩
  intro t
  simp [List.mem_filter]

end Nature.Sched
