import Verif.SizeClass.Lemmas
/-!
# C02  Every small allocation gets a cell that is large enough, of the smallest fitting class
-/
namespace Nature.SizeClass
open Nature

/-- The specification of a good class `c` for a request: its cells hold the request and no lower class's do. -/
def Fits (c size : Nat) : Prop := ∃ a, classObjSize[c]? = some a ∧ size ≤ a
def Smallest (c size : Nat) : Prop := ∀ i, i < c → ¬ Fits i size

/-- C02 (fit): every request of at most 32768 bytes gets a class, and its cells are large enough.  No request in
that range reaches the `assert(false)` at the end of the search. -/
theorem C02_fits (size : Nat) (h : size ≤ 32768) : ∃ c, calcSizeclass size = .ok c ∧ Fits c size := by
  by_cases h2 : size = 2
  · subst h2; exact ⟨2, by decide, 16, by decide, by decide⟩
  · obtain ⟨c, a, e, ha, hs, _⟩ := calc_spec size h2 h
    exact ⟨c, e, a, ha, hs⟩

/-- C02 (minimality), for every size except 2.  The full statement (without `size ≠ 2`) is refuted by
`C02_minimal_counterexample`. -/
theorem C02_minimal_partial (size : Nat) (h2 : size ≠ 2) (h : size ≤ 32768) :
    ∃ c, calcSizeclass size = .ok c ∧ Fits c size ∧ Smallest c size := by
  obtain ⟨c, a, e, ha, hs, hm⟩ := calc_spec size h2 h
  refine ⟨c, e, ⟨a, ha, hs⟩, fun i hi ⟨b, hb, hsb⟩ => ?_⟩
  have := hm i b hi hb
  omega

/-- The code's fast path sends 2-byte requests to the 16-byte class although the 8-byte class fits. -/
theorem C02_minimal_counterexample :
    ¬ ∀ size, size ≤ 32768 → ∃ c, calcSizeclass size = .ok c ∧ Smallest c size := by
  intro h
  obtain ⟨c, e, hm⟩ := h 2 (by decide)
  have : calcSizeclass 2 = .ok 2 := by decide
  rw [this] at e; cases e
  exact hm 1 (by decide) ⟨8, by decide, by decide⟩

/-- A request above the small limit would abort in `calc_sizeclass`; `rti_gc_malloc` never sends one there. -/
theorem C02_choose (ps size : Nat) (hasPtr : Bool) (hps : ps ∈ pageSizes) (h0 : 0 < size) :
    ∃ ch, choose ps size hasPtr = .ok ch ∧
      size ≤ ch.objSize ∧                          -- the cell holds the request
      ch.objSize % 8 = 0 ∧                         -- cells are word aligned relative to the span
      1 ≤ ch.objCount ∧ ch.objCount * ch.objSize ≤ ch.pages * ps ∧  -- all cells lie inside the span
      (ch.spanclass % 2 = if hasPtr then 0 else 1) ∧               -- scan / noscan is recorded faithfully
      (size ≤ 32768 → takeSizeclass ch.spanclass ≠ 0) ∧
      (32768 < size → takeSizeclass ch.spanclass = 0 ∧ ch.objCount = 1) := by
  have hps' : 0 < ps ∧ ps % 8 = 0 := by
    simp only [pageSizes, List.mem_cons, List.not_mem_nil, or_false] at hps
    omega
  by_cases hsz : size ≤ 32768
  · obtain ⟨c, e, a, ha, hs⟩ := C02_fits size hsz
    have hc68 : c < 68 := by
      have := (List.getElem?_eq_some_iff.1 ha).1
      simpa [table_length] using this
    have hc0 : c ≠ 0 := by
      intro h; subst h
      have : classObjSize[0]? = some 0 := by decide
      rw [this] at ha; cases ha; omega
    have hrt := spanclass_roundtrip ⟨c, hc68⟩ (!hasPtr)
    simp only at hrt
    have hf := table_facts ⟨c, hc68⟩ hc0 ps hps
    simp only [ha] at hf
    cases hp : classPagesCount[c]? with
    | none => simp [hp] at hf
    | some pc =>
      simp only [hp, decide_eq_true_eq] at hf
      have hspc : makeSpanclass c (!hasPtr) > 1 := by
        have := hrt.1; unfold takeSizeclass at this
        rw [Nat.shiftRight_eq_div_pow] at this
        omega
      refine ⟨⟨makeSpanclass c (!hasPtr), a, pc, pc * ps / a⟩, ?_, hs, hf.2.1, ?_, ?_, ?_, ?_, ?_⟩
      · unfold choose
        rw [if_pos (show size ≤ stdMallocLimit from hsz), if_pos h0, e]
        simp only [Res.bind, hrt.1, ha, hp]
        rw [if_pos ⟨by omega, hspc⟩, if_pos hf.1]
      · exact (Nat.one_le_div_iff hf.1).2 hf.2.2.1
      · exact Nat.div_mul_le_self _ _
      · simp only; rw [hrt.2]; cases hasPtr <;> simp
      · intro _; simp only; rw [hrt.1]; exact hc0
      · intro hh; omega
  · unfold choose
    rw [if_neg (show ¬ size ≤ stdMallocLimit from hsz)]
    refine ⟨_, rfl, ?_, ?_, Nat.le_refl _, by simp, ?_, by intro hh; omega, ?_⟩
    · simp only
      have hdm := Nat.div_add_mod size ps
      have hml := Nat.mod_lt size hps'.1
      split
      · rw [Nat.add_mul, Nat.one_mul, Nat.mul_comm]; omega
      · rw [Nat.add_zero, Nat.mul_comm]; omega
    · simp only
      rw [Nat.mul_mod, hps'.2]; simp
    · have := (spanclass_roundtrip ⟨0, by decide⟩ (!hasPtr)).2
      simp only at this ⊢
      rw [this]; cases hasPtr <;> simp
    · intro _
      exact ⟨(spanclass_roundtrip ⟨0, by decide⟩ (!hasPtr)).1, rfl⟩

/-- A zero-byte request is the one small size that dies: `std_malloc` asserts `size > 0`. -/
theorem C02_zero_aborts (ps : Nat) (hasPtr : Bool) : choose ps 0 hasPtr = .abort := by
  simp [choose, stdMallocLimit]

-- satisfiability
example : calcSizeclass 33 = .ok 5 ∧ Fits 5 33 ∧ (33 ≠ 2) := ⟨by decide +kernel, ⟨48, by decide, by decide⟩, by decide⟩
example : choose 8192 3000 true = .ok ⟨82, 3072, 3, 8⟩ := by decide +kernel
example : choose 8192 40000 false = .ok ⟨1, 40960, 5, 1⟩ := by decide +kernel

end Nature.SizeClass
