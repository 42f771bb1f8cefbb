import Verif.Sort.Lemmas
/-! C26 and C27: `vec.sort` sorts, `vec.search` finds the boundary. -/
namespace Nature.Sort

variable {α : Type}

theorem range_getD [Inhabited α] (l : List α) :
    (List.range l.length).map (fun i => l.getD i default) = l := by
  apply List.ext_getElem
  · simp
  · intro i h1 h2
    simp at h1
    simp [h1]

/-- What the code computes, for any comparison. -/
theorem sort_spec [Inhabited α] (lt : α → α → Bool) (l : List α) :
    ∃ l', sort lt l = some l' ∧ l'.Perm l ∧ (WeakOrder lt → Ordered lt l') := by
  unfold sort
  split
  · rename_i h
    refine ⟨l, rfl, List.Perm.refl _, ?_⟩
    intro _
    match l, h with
    | [], _ => exact List.Pairwise.nil
    | [x], _ => exact List.pairwise_singleton _ _
    | _ :: _ :: _, h => simp at h
  · obtain ⟨v, e, n, p, s⟩ := pdqsort_spec lt (l.length + 1) ⟨l.length, fun i => l.getD i default⟩
      0 l.length 64 true (by omega) (Nat.zero_le _) (Nat.le_refl _)
    simp only at n p
    refine ⟨_, by rw [e]; rfl, ?_, ?_⟩
    · have := p.perm
      rw [range_getD] at this
      simp only [n]
      exact this
    · intro w
      have hs := s w
      unfold Ordered
      simp only [n]
      rw [List.pairwise_map]
      refine List.Pairwise.imp_of_mem ?_ List.pairwise_lt_range
      intro a b ha hb hab
      rw [List.mem_range] at hb
      exact hs a b (Nat.zero_le _) hab hb

/-- **C26.** For every vector and every comparison that is a strict weak order,
`sort` returns (it neither loops nor trips an index check) a permutation of the
input in which no element is followed by one that compares less than it. -/
theorem C26_sort [Inhabited α] (lt : α → α → Bool) (w : WeakOrder lt) (l : List α) :
    ∃ l', sort lt l = some l' ∧ l'.Perm l ∧ Ordered lt l' := by
  obtain ⟨l', e, p, o⟩ := sort_spec lt l
  exact ⟨l', e, p, o w⟩

/-- **C26**, for any comparison at all, even an inconsistent one: `sort` still
returns, never indexes outside the vector, and loses or duplicates no element. -/
theorem C26_sort_any_comparison [Inhabited α] (lt : α → α → Bool) (l : List α) :
    ∃ l', sort lt l = some l' ∧ l'.Perm l := by
  obtain ⟨l', e, p, _⟩ := sort_spec lt l
  exact ⟨l', e, p⟩

/-- The usual order of integers meets the hypothesis. -/
theorem int_weak : WeakOrder (fun a b : Int => decide (a < b)) where
  irrefl := by intro a; simp
  trans := by intro a b c; simp; omega
  negTrans := by intro a b c; simp; omega

/-- A comparison by key only (records with equal keys are equivalent) meets it. -/
example : WeakOrder (fun a b : Nat × String => decide (a.1 < b.1)) where
  irrefl := by intro a; simp
  trans := by intro a b c; simp; omega
  negTrans := by intro a b c; simp; omega

example : sort (fun a b : Nat => decide (a < b))
    [5, 3, 17, 1, 9, 4, 4, 20, 2, 11, 8, 6, 13, 7, 0, 15] =
    some [0, 1, 2, 3, 4, 4, 5, 6, 7, 8, 9, 11, 13, 15, 17, 20] := by decide +kernel

/-! ### Search -/

theorem searchLoop_spec (n : Nat) (pred : Nat → Bool)
    (hm : ∀ i j, i ≤ j → j < n → pred i = true → pred j = true) :
    ∀ (d low high : Nat), high - low ≤ d → low ≤ high →
      (∀ i, i < low → pred i = false) → high ≤ n →
      low ≤ searchLoop pred low high ∧ searchLoop pred low high ≤ high ∧
      (∀ i, i < searchLoop pred low high → pred i = false) ∧
      (searchLoop pred low high < high → pred (searchLoop pred low high) = true) := by
  intro d
  induction d with
  | zero =>
    intro low high h1 h2 hl hn
    rw [searchLoop, if_neg (by omega)]
    exact ⟨Nat.le_refl _, h2, hl, by omega⟩
  | succ d ih =>
    intro low high h1 h2 hl hn
    rw [searchLoop]
    split
    · split
      · rename_i hp
        have hp' : pred (low + (high - low) / 2) = false := by simpa using hp
        obtain ⟨a1, a2, a3, a4⟩ := ih (low + (high - low) / 2 + 1) high (by omega) (by omega)
          (by
            intro i hi
            rcases Bool.eq_false_or_eq_true (pred i) with h | h
            · have := hm i (low + (high - low) / 2) (by omega) (by omega) h
              rw [hp'] at this; cases this
            · exact h) hn
        exact ⟨by omega, a2, a3, a4⟩
      · rename_i hp
        have hp' : pred (low + (high - low) / 2) = true := by simpa using hp
        obtain ⟨a1, a2, a3, a4⟩ := ih low (low + (high - low) / 2) (by omega) (by omega) hl
          (by omega)
        refine ⟨a1, by omega, a3, ?_⟩
        intro _
        rcases Nat.lt_or_ge (searchLoop pred low (low + (high - low) / 2)) (low + (high - low) / 2) with h | h
        · exact a4 h
        · have : searchLoop pred low (low + (high - low) / 2) = low + (high - low) / 2 := by omega
          rw [this]; exact hp'
    · exact ⟨Nat.le_refl _, h2, hl, by omega⟩

/-- **C27.** For every length `n` and every monotone predicate, `search` returns
the smallest index below `n` at which the predicate holds, or `n` when it holds
at none. -/
theorem C27_search (n : Nat) (pred : Nat → Bool)
    (hm : ∀ i j, i ≤ j → j < n → pred i = true → pred j = true) :
    (search n pred < n ∧ pred (search n pred) = true ∧ ∀ i, i < search n pred → pred i = false) ∨
    (search n pred = n ∧ ∀ i, i < n → pred i = false) := by
  obtain ⟨_, h2, h3, h4⟩ := searchLoop_spec n pred hm n 0 n (by omega) (Nat.zero_le _)
    (by intro i hi; omega) (Nat.le_refl _)
  rcases Nat.lt_or_ge (searchLoop pred 0 n) n with h | h
  · exact .inl ⟨h, h4 h, h3⟩
  · have : searchLoop pred 0 n = n := by omega
    refine .inr ⟨this, fun i hi => h3 i (by omega)⟩

theorem searchLoop_congr (n : Nat) (p q : Nat → Bool) (h : ∀ i, i < n → p i = q i) :
    ∀ (d low high : Nat), high - low ≤ d → high ≤ n → searchLoop p low high = searchLoop q low high := by
  intro d
  induction d with
  | zero =>
    intro low high h1 h2
    rw [searchLoop.eq_1 p, searchLoop.eq_1 q, if_neg (by omega), if_neg (by omega)]
  | succ d ih =>
    intro low high h1 h2
    rw [searchLoop.eq_1 p, searchLoop.eq_1 q]
    split
    · rw [h (low + (high - low) / 2) (by omega)]
      split
      · exact ih _ _ (by omega) h2
      · exact ih _ _ (by omega) (by omega)
    · rfl

/-- **C27.** `search` consults the predicate only at indices of the vector: its
result does not depend on anything the predicate says at `n` or above. -/
theorem C27_search_in_bounds (n : Nat) (p q : Nat → Bool) (h : ∀ i, i < n → p i = q i) :
    search n p = search n q := searchLoop_congr n p q h n 0 n (by omega) (Nat.le_refl _)

example : (∀ i j : Nat, i ≤ j → j < 100 → (fun k => decide (37 ≤ k)) i = true → (fun k => decide (37 ≤ k)) j = true) ∧
    search 100 (fun k => decide (37 ≤ k)) = 37 ∧ search 20 (fun k => decide (37 ≤ k)) = 20 :=
  ⟨by intro i j _ _; simp; omega, by decide +kernel, by decide +kernel⟩

end Nature.Sort
