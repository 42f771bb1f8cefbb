import Verif.Amd64.Check
/-! The finite check, evaluated by the kernel over the whole table. -/
namespace Nature.Amd64
open Spec

/-! ## The finite check -/

theorem check1 : rows1.all checkRow = true := by decide +kernel
theorem check2 : rows2.all checkRow = true := by decide +kernel
theorem check3 : rows3.all checkRow = true := by decide +kernel
theorem check4 : rows4.all checkRow = true := by decide +kernel
theorem check5 : rows5.all checkRow = true := by decide +kernel

theorem mem_paths : ∀ (ts : List (OpTy × Enc)) (ks : List Key), Row.under ts ks = true → ks ∈ paths ts
  | [], [], _ => by simp [paths]
  | [], _ :: _, h => by simp [Row.under] at h
  | _ :: _, [], h => by simp [Row.under] at h
  | (t, e) :: ts, k :: ks, h => by
    simp only [Row.under, Bool.and_eq_true] at h
    simp only [paths, List.mem_flatMap, List.mem_map]
    exact ⟨k, by simpa using h.1, ks, mem_paths ts ks h.2, rfl⟩

theorem checked (n : Name) (ks : List Key) (high : Bool) : checkPath n ks high = true := by
  by_cases h0 : leaf n ks = []
  · simp [checkPath, selectKey, h0, sortRows]
  · obtain ⟨r, hr⟩ := List.exists_mem_of_ne_nil _ h0
    simp only [leaf, List.mem_filter, Bool.and_eq_true, decide_eq_true_eq] at hr
    have hall : checkRow r = true := by
      have hm := hr.1
      simp only [rows, List.mem_append] at hm
      rcases hm with (((hm | hm) | hm) | hm) | hm
      · exact List.all_eq_true.1 check1 r hm
      · exact List.all_eq_true.1 check2 r hm
      · exact List.all_eq_true.1 check3 r hm
      · exact List.all_eq_true.1 check4 r hm
      · exact List.all_eq_true.1 check5 r hm
    have := List.all_eq_true.1 hall ks (mem_paths _ _ hr.2.2)
    simp only [Bool.and_eq_true, hr.2.1] at this
    cases high
    · exact this.2
    · exact this.1

end Nature.Amd64
