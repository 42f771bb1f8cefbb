import Verif.Archive.Model
import Verif.Archive.Spec

/-!
# Fields of a header and names
-/

namespace Nature.Archive

open Spec (dec fill)

/-- A text that does not end in a space is what is left of it filled with spaces. -/
theorem rtrim_fill (w : Nat) (s : List Nat) (x : Nat) (hx : x ≠ 32) :
    rtrim (fill w (s ++ [x])) = s ++ [x] := by
  simp [rtrim, fill, hx]

theorem rtrim_self (s : List Nat) (x : Nat) (hx : x ≠ 32) : rtrim (s ++ [x]) = s ++ [x] := by
  simp [rtrim, hx]

/-- Every decimal text ends in a digit. -/
theorem dec_last (n : Nat) : ∃ s d, dec n = s ++ [48 + d] ∧ d < 10 := by
  rw [dec]
  split
  · exact ⟨[], n, rfl, by omega⟩
  · exact ⟨dec (n / 10), n % 10, rfl, Nat.mod_lt _ (by omega)⟩

/-- And begins with one. -/
theorem dec_first (n : Nat) : ∃ d s, dec n = (48 + d) :: s ∧ d < 10 := by
  induction n using Nat.strongRecOn with
  | ind n ih =>
    rw [dec]
    split
    · exact ⟨n, [], rfl, by omega⟩
    · obtain ⟨d, s, h, hd⟩ := ih (n / 10) (by omega)
      exact ⟨d, s ++ [48 + n % 10], by rw [h]; rfl, hd⟩

theorem dec_length (k n : Nat) (h : n < 10 ^ (k + 1)) : (dec n).length ≤ k + 1 := by
  induction k generalizing n with
  | zero => rw [dec, if_pos (by simpa using h)]; simp
  | succ k ih =>
    rw [dec]
    split
    · simp
    · have := ih (n / 10) (by rw [Nat.pow_succ] at h; omega)
      simp; omega

theorem digits_append (a b : List Nat) (r : Nat) :
    digits r (a ++ b) = (digits r a).bind (fun x => digits x b) := by
  induction a generalizing r with
  | nil => rfl
  | cons c cs ih =>
    simp only [List.cons_append, digits]
    split
    · rfl
    · split
      · rfl
      · exact ih _

theorem digits_one (r d : Nat) (hd : d < 10) (h : r * 10 + d < 2 ^ 64) :
    digits r [48 + d] = some (r * 10 + d) := by
  simp only [digits]
  rw [if_neg (by omega), if_neg (by omega)]
  congr 1; omega

theorem digits_dec (n : Nat) (h : n < 2 ^ 64) : digits 0 (dec n) = some n := by
  induction n using Nat.strongRecOn with
  | ind n ih =>
    rw [dec]
    split
    · rw [digits_one 0 n (by omega) (by omega)]; simp
    · rw [digits_append, ih (n / 10) (by omega) (by omega)]
      simp only [Option.bind]
      rw [digits_one _ _ (by omega) (by omega)]
      congr 1; omega

theorem ltrim_dec (n : Nat) (r : List Nat) : (dec n ++ r).dropWhile (· == 32) = dec n ++ r := by
  obtain ⟨d, s, h, hd⟩ := dec_first n
  rw [h, List.cons_append, List.dropWhile_cons_of_neg]
  simp only [beq_iff_eq]; omega

/-- A number is read back from its decimal text filled with spaces. -/
theorem decimal_fill (w n : Nat) (h : n < 2 ^ 64) : decimal (fill w (dec n)) = some n := by
  obtain ⟨s, d, e, hd⟩ := dec_last n
  unfold decimal
  have h1 : (fill w (dec n)).dropWhile (· == 32) = fill w (dec n) := ltrim_dec n _
  have h2 : rtrim (fill w (dec n)) = dec n := by
    rw [e]; exact rtrim_fill w s _ (by omega)
  simp only [h1, h2]
  rw [if_neg (by rw [e]; simp)]
  exact digits_dec n h

theorem decimal_dec (n : Nat) (h : n < 2 ^ 64) : decimal (dec n) = some n := by
  have := decimal_fill 0 n h
  simpa [fill] using this

theorem offsetField_dec (n : Nat) : offsetField (47 :: dec n) = dec n := by
  obtain ⟨s, d, e, hd⟩ := dec_last n
  unfold offsetField
  simp only [List.drop_succ_cons, List.drop_zero]
  rw [if_neg (by rw [e]; simp; omega)]

theorem findIdx_first (p : Nat → Bool) (a b : List Nat) (c : Nat) (ha : ∀ x ∈ a, p x = false)
    (hc : p c = true) : (a ++ c :: b).findIdx? p = some a.length := by
  induction a with
  | nil => simp [List.findIdx?_cons, hc]
  | cons x xs ih =>
    have := ha x (by simp)
    simp [List.findIdx?_cons, this, ih (fun y hy => ha y (by simp [hy]))]

theorem findIdx_ge (p : Nat → Bool) (a b : List Nat) (n : Nat) (ha : ∀ x ∈ a, p x = false)
    (h : (a ++ b).findIdx? p = some n) : a.length ≤ n := by
  induction a generalizing n with
  | nil => simp
  | cons x xs ih =>
    have := ha x (by simp)
    simp only [List.cons_append, List.findIdx?_cons, this] at h
    simp only [Bool.false_eq_true, if_false, Option.map_eq_some_iff] at h
    obtain ⟨m, hm, rfl⟩ := h
    have := ih m (fun y hy => ha y (by simp [hy])) hm
    simp; omega

theorem dropSlash_snoc (s : List Nat) : dropSlash (s ++ [47]) = s := by
  simp [dropSlash]

/-- A name of the table is found at its position. -/
theorem longName_at (table name before after : List Nat)
    (ht : table = before ++ (name ++ [47, 10]) ++ after)
    (hb : before = [] ∨ ∃ s, before = s ++ [10]) (hn : name ≠ []) (h10 : 10 ∉ name) (h0 : 0 ∉ name)
    (hlen : before.length < 2 ^ 64) :
    longName (dec before.length) table = .ok name := by
  have hlt : before.length < table.length := by rw [ht]; simp; omega
  have hne : table ≠ [] := by intro h; rw [h] at hlt; simp at hlt
  have hv : table.drop before.length = (name ++ [47]) ++ 10 :: after := by
    rw [ht]; simp
  have hprev : ¬ (before.length ≠ 0 ∧ table.getD (before.length - 1) 0 ≠ 10 ∧
      table.getD (before.length - 1) 0 ≠ 0) := by
    rcases hb with rfl | ⟨s, rfl⟩
    · simp
    · rw [ht]; simp
  have hnl : (table.drop before.length).findIdx? (· == 10) = some (name.length + 1) := by
    rw [hv, findIdx_first _ _ _ _ _ (by simp)]
    · simp
    · intro x hx
      simp only [List.mem_append, List.mem_singleton] at hx
      rcases hx with hx | rfl
      · simp only [beq_eq_false_iff_ne]; rintro rfl; exact h10 hx
      · rfl
  have hnul : ∀ b, (table.drop before.length).findIdx? (· == 0) = some b →
      name.length + 1 ≤ b := by
    intro b hb
    rw [hv] at hb
    have := findIdx_ge _ _ _ _ ?_ hb
    · simpa using this
    · intro x hx
      simp only [List.mem_append, List.mem_singleton] at hx
      rcases hx with hx | rfl
      · simp only [beq_eq_false_iff_ne]; rintro rfl; exact h0 hx
      · rfl
  have htake : (table.drop before.length).take (name.length + 1) = name ++ [47] := by
    rw [hv, List.take_append_of_le_length (by simp)]
    rw [List.take_of_length_le (by simp)]
  unfold longName
  rw [if_neg hne, decimal_dec _ hlen]
  simp only
  rw [if_neg (by omega), if_neg hprev]
  have hc : copyName name = .ok name := by simp [copyName, hn, h0]
  rw [hnl]
  rcases hz : (table.drop before.length).findIdx? (· == 0) with _ | b
  · simp only [htake, dropSlash_snoc, hc]
  · have := hnul b hz
    have e : (if name.length + 1 < b then name.length + 1 else b) = name.length + 1 := by
      split <;> omega
    simp only [e, htake, dropSlash_snoc, hc]

end Nature.Archive
