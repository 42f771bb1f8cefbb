import Verif.EhHdr.Spec

/-!
# The search in a sorted table
-/

namespace Nature.EhHdr

open Spec (start bisect search)

/-- Rows in the order of their starts. -/
def Sorted (t : List (Nat × Nat)) : Prop :=
  ∀ i j, i ≤ j → j < t.length → start t i ≤ start t j

theorem bisect_spec (t : List (Nat × Nat)) (hs : Sorted t) (pc fuel lo hi : Nat) (hh : hi < t.length)
    (h1 : start t lo ≤ pc) (h2 : pc < start t hi) (hf : hi - lo < fuel) (hle : lo ≤ hi) :
    ∃ m, bisect t pc fuel lo hi = some m ∧ m + 1 < t.length ∧ start t m ≤ pc ∧ pc < start t (m + 1) := by
  induction fuel generalizing lo hi with
  | zero => omega
  | succ fuel ih =>
    have hlt : lo < hi := by
      rcases Nat.lt_or_ge lo hi with h | h
      · exact h
      · have : lo = hi := by omega
        subst this; omega
    rw [bisect, if_pos hlt]
    simp only
    by_cases a : pc < start t ((lo + hi) / 2)
    · rw [if_pos a]
      exact ih lo _ (by omega) h1 a (by omega) (by omega)
    · rw [if_neg a]
      by_cases b : pc ≥ start t ((lo + hi) / 2 + 1)
      · rw [if_pos b]
        exact ih _ hi hh b h2 (by omega) (by omega)
      · rw [if_neg b]
        exact ⟨_, rfl, by omega, by omega, by omega⟩

theorem mem_start (t : List (Nat × Nat)) (r : Nat × Nat) (h : r ∈ t) :
    ∃ i, i < t.length ∧ start t i = r.1 := by
  obtain ⟨i, hi, rfl⟩ := List.getElem_of_mem h
  exact ⟨i, hi, by simp [start, hi]⟩

theorem getD_mem (t : List (Nat × Nat)) (i : Nat) (h : i < t.length) : t.getD i (0, 0) ∈ t := by
  simp [h]

theorem search_spec (t : List (Nat × Nat)) (hs : Sorted t) (pc : Nat) :
    match search t pc with
    | .nothing => ∀ r ∈ t, pc < r.1
    | .row r => r ∈ t ∧ r.1 ≤ pc ∧ ∀ r' ∈ t, r'.1 ≤ pc → r'.1 ≤ r.1
    | .abort => False := by
  unfold search
  by_cases h0 : t.length = 0
  · rw [if_pos h0]
    have : t = [] := List.length_eq_zero_iff.mp h0
    simp [this]
  · rw [if_neg h0]
    by_cases h1 : pc < start t 0
    · rw [if_pos h1]
      intro r hr
      obtain ⟨i, hi, e⟩ := mem_start t r hr
      have := hs 0 i (by omega) hi
      omega
    · rw [if_neg h1]
      by_cases h2 : pc < start t (t.length - 1)
      · rw [if_pos h2]
        obtain ⟨m, e, a, b, c⟩ := bisect_spec t hs pc t.length 0 (t.length - 1) (by omega) (by omega) h2
          (by omega) (by omega)
        rw [e]
        refine ⟨getD_mem t m (by omega), b, ?_⟩
        intro r' hr' hle
        obtain ⟨i, hi, e'⟩ := mem_start t r' hr'
        rcases Nat.lt_or_ge m i with h | h
        · have := hs (m + 1) i (by omega) hi
          omega
        · have := hs i m (by omega) (by omega)
          rw [← e']; exact this
      · rw [if_neg h2]
        refine ⟨getD_mem t _ (by omega), by show start t _ ≤ pc; omega, ?_⟩
        intro r' hr' _
        obtain ⟨i, hi, e'⟩ := mem_start t r' hr'
        have := hs i (t.length - 1) (by omega) (by omega)
        rw [← e']; exact this

end Nature.EhHdr
