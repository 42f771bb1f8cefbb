import Verif.Cie.Model

/-!
# C113: merged common information entries are equal
-/

namespace Nature.Cie

theorem bytesEqual_iff (a b : List Nat) (h : a.length = b.length) : bytesEqual a b = true ↔ a = b := by
  induction a generalizing b with
  | nil =>
    cases b with
    | nil => simp [bytesEqual]
    | cons => simp at h
  | cons x xs ih =>
    cases b with
    | nil => simp at h
    | cons y ys =>
      simp only [List.length_cons, Nat.add_right_cancel_iff] at h
      simp [bytesEqual, ih ys h]

theorem relocsEqual_iff (a b : List Reloc) (h : a.length = b.length) : relocsEqual a b = true ↔ a = b := by
  induction a generalizing b with
  | nil =>
    cases b with
    | nil => simp [relocsEqual]
    | cons => simp at h
  | cons x xs ih =>
    cases b with
    | nil => simp at h
    | cons y ys =>
      simp only [List.length_cons, Nat.add_right_cancel_iff] at h
      rw [relocsEqual]
      split
      · rename_i hne
        constructor
        · intro h; simp at h
        · intro he
          simp only [List.cons.injEq] at he
          rw [he.1] at hne
          simp at hne
      · rename_i hne
        simp only [ne_eq, not_or, Decidable.not_not] at hne
        rw [ih ys h, List.cons.injEq]
        constructor
        · intro he
          refine ⟨?_, he⟩
          cases x; cases y
          simp only at hne
          obtain ⟨h1, h2, h3, h4, h5⟩ := hne
          subst h1; subst h2; subst h3; subst h4; subst h5
          rfl
        · exact fun he => he.2

theorem equal_iff (a b : Entry) : equal a b = true ↔ a = b := by
  unfold equal
  split
  · rename_i hne
    constructor
    · intro h; simp at h
    · rintro rfl
      rcases hne with h | h | h
      · exact absurd rfl h
      · rw [(bytesEqual_iff a.bytes a.bytes rfl).mpr rfl] at h; simp at h
      · exact absurd rfl h
  · rename_i hne
    simp only [ne_eq, not_or, Decidable.not_not, Bool.not_eq_false] at hne
    obtain ⟨h1, h2, h3⟩ := hne
    rw [bytesEqual_iff _ _ h1] at h2
    rw [relocsEqual_iff _ _ h3]
    cases a; cases b
    simp only at h2
    subst h2
    simp

/-- Every entry seen has the least index with the same contents. -/
def Inv (seen : List (Entry × Nat)) : Prop :=
  ∀ (k : Nat) (e : Entry) (c : Nat), seen[k]? = some (e, c) →
    (∃ c', seen[c]? = some (e, c')) ∧ ∀ (j : Nat) (c' : Nat), seen[j]? = some (e, c') → c ≤ j

theorem canonical_spec (e : Entry) (l : List (Entry × Nat)) (i : Nat) :
    (canonical e l i = i ∧ ∀ (k : Nat) (c : Nat), l[k]? ≠ some (e, c)) ∨
      ∃ k : Nat, l[k]? = some (e, canonical e l i) := by
  induction l with
  | nil => left; simp [canonical]
  | cons x l ih =>
    obtain ⟨x, c⟩ := x
    rw [canonical]
    split
    · rename_i h
      rw [equal_iff] at h
      exact Or.inr ⟨0, by simp [h]⟩
    · rename_i h
      rw [equal_iff] at h
      rcases ih with ⟨h1, h2⟩ | ⟨k, h1⟩
      · left
        refine ⟨h1, ?_⟩
        intro k c'
        cases k with
        | zero =>
          intro hk
          simp only [List.getElem?_cons_zero, Option.some.injEq, Prod.mk.injEq] at hk
          exact h hk.1.symm
        | succ k =>
          rw [List.getElem?_cons_succ]
          exact h2 k c'
      · exact Or.inr ⟨k + 1, by rw [List.getElem?_cons_succ]; exact h1⟩

theorem snoc_get {α : Type} (l : List α) (x y : α) (k : Nat) (h : (l ++ [x])[k]? = some y) :
    l[k]? = some y ∨ (k = l.length ∧ y = x) := by
  rcases Nat.lt_trichotomy k l.length with hk | hk | hk
  · rw [List.getElem?_append_left hk] at h
    exact Or.inl h
  · subst hk
    simp only [List.getElem?_append_right (Nat.le_refl _), Nat.sub_self, List.getElem?_cons_zero,
      Option.some.injEq] at h
    exact Or.inr ⟨rfl, h.symm⟩
  · rw [List.getElem?_eq_none (by simp; omega)] at h
    simp at h

theorem get_snoc {α : Type} (l : List α) (x y : α) (k : Nat) (h : l[k]? = some y) :
    (l ++ [x])[k]? = some y := by
  have := (List.getElem?_eq_some_iff.mp h).1
  rw [List.getElem?_append_left this, h]

theorem inv_snoc (e : Entry) (seen : List (Entry × Nat)) (hi : Inv seen) :
    Inv (seen ++ [(e, canonical e seen seen.length)]) := by
  have hlast : (seen ++ [(e, canonical e seen seen.length)])[seen.length]? =
      some (e, canonical e seen seen.length) := by simp
  intro k x c hk
  rcases snoc_get _ _ _ _ hk with hk | ⟨rfl, hl⟩
  · obtain ⟨⟨c', h1⟩, h2⟩ := hi k x c hk
    refine ⟨⟨c', get_snoc _ _ _ _ h1⟩, ?_⟩
    intro j d hj
    rcases snoc_get _ _ _ _ hj with hj | ⟨rfl, hj⟩
    · exact h2 j d hj
    · have := (List.getElem?_eq_some_iff.mp h1).1
      omega
  · obtain ⟨rfl, rfl⟩ := Prod.mk.inj hl
    rcases canonical_spec x seen seen.length with ⟨h1, h2⟩ | ⟨k, h1⟩
    · refine ⟨⟨_, by rw [h1] at hlast ⊢; exact hlast⟩, ?_⟩
      intro j d hj
      rcases snoc_get _ _ _ _ hj with hj | ⟨rfl, _⟩
      · exact absurd hj (h2 j d)
      · omega
    · obtain ⟨⟨c', g1⟩, g2⟩ := hi k x _ h1
      refine ⟨⟨c', get_snoc _ _ _ _ g1⟩, ?_⟩
      intro j d hj
      rcases snoc_get _ _ _ _ hj with hj | ⟨rfl, _⟩
      · exact g2 j d hj
      · have := (List.getElem?_eq_some_iff.mp g1).1
        omega

theorem go_spec (es : List Entry) (seen : List (Entry × Nat)) (hi : Inv seen) :
    Inv (go es seen) ∧ (go es seen).map (·.1) = seen.map (·.1) ++ es := by
  induction es generalizing seen with
  | nil => exact ⟨hi, by simp [go]⟩
  | cons e es ih =>
    obtain ⟨h1, h2⟩ := ih _ (inv_snoc e seen hi)
    refine ⟨h1, ?_⟩
    rw [go, h2]
    simp

/-- Every entry is replaced by the first one that has the same bytes and the same relocations. -/
theorem C113_first (entries : List Entry) :
    (deduplicate entries).length = entries.length ∧
    ∀ (i c : Nat), (deduplicate entries)[i]? = some c →
      entries[c]? = entries[i]? ∧ ∀ j, entries[j]? = entries[i]? → c ≤ j := by
  obtain ⟨hi, hm⟩ := go_spec entries [] (by intro k e c h; simp at h)
  simp only [List.map_nil, List.nil_append] at hm
  refine ⟨?_, ?_⟩
  · have := congrArg List.length hm
    simpa [deduplicate] using this
  · intro i c hc
    rw [deduplicate, List.getElem?_map, Option.map_eq_some_iff] at hc
    obtain ⟨⟨e, c'⟩, h1, h2⟩ := hc
    simp only at h2
    subst h2
    have at' : ∀ k : Nat, entries[k]? = ((go entries [])[k]?).map Prod.fst := by
      intro k
      rw [← List.getElem?_map, hm]
    obtain ⟨⟨d, g1⟩, g2⟩ := hi i e c' h1
    rw [at' i, h1]
    refine ⟨by rw [at' c', g1]; rfl, ?_⟩
    intro j hj
    rw [at' j, Option.map_some, Option.map_eq_some_iff] at hj
    obtain ⟨⟨x, d'⟩, k1, k2⟩ := hj
    simp only at k2
    subst k2
    exact g2 j d' k1

/-- Entries that differ only in a relocation stay apart. -/
example : deduplicate [⟨[1, 2], []⟩, ⟨[1, 2], [⟨1, 2, 0, 0, 7⟩]⟩, ⟨[1, 2], []⟩, ⟨[1, 2], [⟨1, 2, 0, 0, 8⟩]⟩,
    ⟨[1, 2], [⟨1, 2, 0, 0, 7⟩]⟩, ⟨[1, 2], []⟩] = [0, 1, 0, 3, 1, 0] := by decide +kernel

end Nature.Cie
