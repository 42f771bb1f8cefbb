import Verif.SizeClass.Model
namespace Nature.SizeClass
open Nature

theorem table_length : classObjSize.length = 68 := by decide
theorem pages_length : classPagesCount.length = 68 := by decide

/-- The table is strictly increasing. -/
theorem table_mono : ∀ i : Fin 67, ∀ a b, classObjSize[i.val]? = some a → classObjSize[i.val + 1]? = some b → a < b := by
  intro i a b ha hb
  have h : ∀ i : Fin 67, (match classObjSize[i.val]?, classObjSize[i.val + 1]? with
    | some a, some b => decide (a < b)
    | _, _ => true) = true := by decide
  have := h i
  rw [ha, hb] at this
  simpa using this

theorem table_strict {i j a b : Nat} (hij : i < j) (ha : classObjSize[i]? = some a) (hb : classObjSize[j]? = some b) :
    a < b := by
  induction j generalizing b with
  | zero => omega
  | succ j ih =>
    have hj : j + 1 < 68 := by
      have := (List.getElem?_eq_some_iff.1 hb).1
      simpa [table_length] using this
    have hj' : j < classObjSize.length := by rw [table_length]; omega
    have hc : classObjSize[j]? = some (classObjSize[j]'hj') := List.getElem?_eq_getElem hj'
    have h2 := table_mono ⟨j, by omega⟩ _ _ hc hb
    by_cases h : i = j
    · subst h; rw [ha] at hc; cases hc; exact h2
    · exact Nat.lt_trans (ih (by omega) hc) h2

theorem searchLoop_spec (size left right : Nat) (hr : right < 68)
    (hlo : ∀ i a, i < left → classObjSize[i]? = some a → a < size)
    (hhi : ∃ i a, left ≤ i ∧ i ≤ right ∧ classObjSize[i]? = some a ∧ size ≤ a) :
    ∃ c a, searchLoop classObjSize size left right = .ok c ∧ classObjSize[c]? = some a ∧ size ≤ a ∧
      ∀ i b, i < c → classObjSize[i]? = some b → b < size := by
  fun_induction searchLoop classObjSize size left right with
  | case1 left right h mid hnone =>
    have : mid < classObjSize.length := by rw [table_length]; omega
    rw [List.getElem?_eq_getElem this] at hnone; cases hnone
  | case2 left right h mid o ho hge hm =>
    exact ⟨mid, o, rfl, ho, hge, by intro i b hi; omega⟩
  | case3 left right h mid o ho hge hm hnone =>
    have : mid - 1 < classObjSize.length := by rw [table_length]; omega
    rw [List.getElem?_eq_getElem this] at hnone; cases hnone
  | case4 left right h mid o ho hge hm prev hp hlt =>
    refine ⟨mid, o, rfl, ho, hge, fun i b hi hb => ?_⟩
    by_cases hi' : i = mid - 1
    · subst hi'; rw [hp] at hb; cases hb; exact hlt
    · exact Nat.lt_trans (table_strict (by omega) hb hp) hlt
  | case5 left right h mid o ho hge hm prev hp hnlt ih =>
    have hml : left ≤ mid - 1 := by
      by_cases hh : left ≤ mid - 1
      · exact hh
      · exact absurd (hlo (mid - 1) prev (by omega) hp) hnlt
    exact ih (by omega) hlo ⟨mid - 1, prev, hml, by omega, hp, by omega⟩
  | case6 left right h mid o ho hlt ih =>
    apply ih hr
    · intro i a hi ha
      by_cases hi' : i = mid
      · subst hi'; rw [ho] at ha; cases ha; omega
      · have := table_strict (show i < mid by omega) ha ho; omega
    · obtain ⟨i, a, h1, h2, h3, h4⟩ := hhi
      refine ⟨i, a, ?_, h2, h3, h4⟩
      by_cases hi' : mid + 1 ≤ i
      · exact hi'
      · by_cases hi2 : i = mid
        · subst hi2; rw [ho] at h3; cases h3; omega
        · have := table_strict (show i < mid by omega) h3 ho; omega
  | case7 left right h =>
    obtain ⟨i, a, h1, h2, h3, h4⟩ := hhi
    omega

theorem calc_spec (size : Nat) (h2 : size ≠ 2) (h : size ≤ 32768) :
    ∃ c a, calcSizeclass size = .ok c ∧ classObjSize[c]? = some a ∧ size ≤ a ∧
      ∀ i b, i < c → classObjSize[i]? = some b → b < size := by
  have hs : ∃ c a, searchLoop classObjSize size 0 67 = .ok c ∧ classObjSize[c]? = some a ∧ size ≤ a ∧
      ∀ i b, i < c → classObjSize[i]? = some b → b < size :=
    searchLoop_spec size 0 67 (by omega) (by intro i a hi; omega)
      ⟨67, 32768, by omega, by omega, by decide, h⟩
  unfold calcSizeclass
  have fast : ∀ (s c : Nat), size = s → (match classObjSize[c]? with | some a => decide (s ≤ a) | none => false) = true →
      (∀ i : Fin c, (match classObjSize[i.val]? with | some b => decide (b < s) | none => true) = true) →
      ∃ c' a, Res.ok c = Res.ok c' ∧ classObjSize[c']? = some a ∧ size ≤ a ∧
        ∀ i b, i < c' → classObjSize[i]? = some b → b < size := by
    intro s c hs hc hi
    subst hs
    cases hcc : classObjSize[c]? with
    | none => simp [hcc] at hc
    | some a =>
      simp only [hcc, decide_eq_true_eq] at hc
      refine ⟨c, a, rfl, hcc, hc, fun i b hi' hb => ?_⟩
      have := hi ⟨i, hi'⟩
      simp only [hb, decide_eq_true_eq] at this
      exact this
  by_cases e1 : size = 1
  · rw [if_pos e1]; exact fast 1 1 e1 (by decide) (by decide)
  rw [if_neg e1, if_neg h2]
  by_cases e2 : size = 40
  · rw [if_pos e2]; exact fast 40 5 e2 (by decide) (by decide)
  rw [if_neg e2]
  by_cases e3 : size = 48
  · rw [if_pos e3]; exact fast 48 5 e3 (by decide) (by decide)
  rw [if_neg e3]
  by_cases e4 : size = 56
  · rw [if_pos e4]; exact fast 56 6 e4 (by decide) (by decide)
  rw [if_neg e4]
  by_cases e5 : size = 128
  · rw [if_pos e5]; exact fast 128 10 e5 (by decide) (by decide)
  rw [if_neg e5]
  exact hs

theorem spanclass_roundtrip : ∀ c : Fin 68, ∀ b : Bool, takeSizeclass (makeSpanclass c.val b) = c.val ∧
    (makeSpanclass c.val b) % 2 = (if b then 1 else 0) := by decide

/-- Facts about the whole (finite) class tables, for both page sizes. -/
theorem table_facts : ∀ c : Fin 68, c.val ≠ 0 → ∀ ps ∈ pageSizes,
    (match classObjSize[c.val]?, classPagesCount[c.val]? with
    | some os, some pc => decide (0 < os ∧ os % 8 = 0 ∧ os ≤ pc * ps ∧ 0 < pc)
    | _, _ => false) = true := by decide

end Nature.SizeClass
