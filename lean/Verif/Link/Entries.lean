import Verif.Link.Model
import Verif.Link.Spec

/-!
# The loops over objects and symbols
-/

namespace Nature.Link

open Spec (Has Before)

theorem mem_symsFrom (i j : Nat) (ss : List Sym) (p : Pos) (s : Sym) :
    (p, s) ∈ symsFrom i j ss ↔ p.1 = i ∧ ∃ k, p.2 = j + k ∧ ss[k]? = some s := by
  induction ss generalizing j with
  | nil => simp [symsFrom]
  | cons x xs ih =>
    simp only [symsFrom, List.mem_cons, Prod.mk.injEq, ih]
    constructor
    · rintro (⟨rfl, rfl⟩ | ⟨h1, k, h2, h3⟩)
      · exact ⟨rfl, 0, rfl, rfl⟩
      · exact ⟨h1, k + 1, by omega, by simpa using h3⟩
    · rintro ⟨h1, k, h2, h3⟩
      rcases k with _ | k
      · left
        refine ⟨?_, by simpa using h3.symm⟩
        obtain ⟨a, b⟩ := p
        simp only at h1 h2
        rw [h1, h2]; rfl
      · right
        exact ⟨h1, k, by omega, by simpa using h3⟩

theorem mem_entriesFrom (q : Nat → Obj → Bool) (i : Nat) (os : List Obj) (p : Pos) (s : Sym) :
    (p, s) ∈ entriesFrom q i os ↔
      ∃ k o, p.1 = i + k ∧ os[k]? = some o ∧ q p.1 o = true ∧ o.syms[p.2]? = some s := by
  induction os generalizing i with
  | nil => simp [entriesFrom]
  | cons x xs ih =>
    simp only [entriesFrom, List.mem_append, ih]
    constructor
    · rintro (h | ⟨k, o, h1, h2, h3, h4⟩)
      · split at h
        · rename_i hq
          obtain ⟨h1, k, h2, h3⟩ := (mem_symsFrom i 0 x.syms p s).mp h
          refine ⟨0, x, h1, rfl, by rw [h1]; exact hq, ?_⟩
          rw [h2, Nat.zero_add]; exact h3
        · simp at h
      · exact ⟨k + 1, o, by omega, by simpa using h2, h3, h4⟩
    · rintro ⟨k, o, h1, h2, h3, h4⟩
      rcases k with _ | k
      · left
        have hx : x = o := by simpa using h2
        subst hx
        have h1' : p.1 = i := h1
        rw [if_pos (by rw [← h1']; exact h3)]
        exact (mem_symsFrom i 0 x.syms p s).mpr ⟨h1', p.2, by omega, h4⟩
      · right
        exact ⟨k, o, by omega, by simpa using h2, h3, h4⟩

/-- The symbols of the linked objects. -/
theorem mem_entries (objs : List Obj) (sel : Nat → Bool) (p : Pos) (s : Sym) :
    (p, s) ∈ entries objs sel ↔ sel p.1 = true ∧ Has objs p s := by
  unfold entries Has
  rw [mem_entriesFrom]
  constructor
  · rintro ⟨k, o, h1, h2, h3, h4⟩
    have : p.1 = k := by omega
    exact ⟨h3, o, by rw [this]; exact h2, h4⟩
  · rintro ⟨h1, o, h2, h3⟩
    exact ⟨p.1, o, by omega, h2, h1, h3⟩

theorem symsFrom_order (i j : Nat) (ss : List Sym) :
    (symsFrom i j ss).Pairwise fun a b => Before a.1 b.1 := by
  induction ss generalizing j with
  | nil => exact List.Pairwise.nil
  | cons x xs ih =>
    refine List.Pairwise.cons ?_ (ih _)
    rintro ⟨p, s⟩ h
    obtain ⟨h1, k, h2, _⟩ := (mem_symsFrom _ _ _ _ _).mp h
    right
    simp only
    omega

theorem entriesFrom_order (q : Nat → Obj → Bool) (i : Nat) (os : List Obj) :
    (entriesFrom q i os).Pairwise fun a b => Before a.1 b.1 := by
  induction os generalizing i with
  | nil => exact List.Pairwise.nil
  | cons x xs ih =>
    rw [entriesFrom, List.pairwise_append]
    refine ⟨?_, ih _, ?_⟩
    · split
      · exact symsFrom_order _ _ _
      · exact List.Pairwise.nil
    · rintro ⟨p, s⟩ h ⟨p', s'⟩ h'
      split at h
      · obtain ⟨h1, _⟩ := (mem_symsFrom _ _ _ _ _).mp h
        obtain ⟨k, o, h2, _⟩ := (mem_entriesFrom _ _ _ _ _).mp h'
        left; simp only; omega
      · simp at h

theorem entries_order (objs : List Obj) (sel : Nat → Bool) :
    (entries objs sel).Pairwise fun a b => Before a.1 b.1 := entriesFrom_order _ _ _

end Nature.Link
