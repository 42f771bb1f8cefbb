import Verif.PageAlloc.Spec
/-! Algebra of free runs. -/
namespace Nature.PageAlloc

variable {free : Nat → Bool}

theorem AllFree.sub {a k b l : Nat} (h : AllFree free a k) (h1 : a ≤ b) (h2 : b + l ≤ a + k) : AllFree free b l :=
  fun i hi hl => h i (by omega) (by omega)

theorem AllFree.append {a k l : Nat} (h : AllFree free a k) (h2 : AllFree free (a + k) l) : AllFree free a (k + l) := by
  intro i hi hl
  by_cases c : i < a + k
  · exact h i hi c
  · exact h2 i (by omega) (by omega)

theorem AllFree.zero (a : Nat) : AllFree free a 0 := fun i hi hl => absurd hl (by omega)

theorem HasRun.zero {lo hi : Nat} (h : lo ≤ hi) : HasRun free lo hi 0 := ⟨lo, by omega, by omega, AllFree.zero _⟩

theorem HasRun.mono {lo hi lo' hi' k : Nat} (h : HasRun free lo hi k) (h1 : lo' ≤ lo) (h2 : hi ≤ hi') :
    HasRun free lo' hi' k := by
  obtain ⟨a, ha, hb, hf⟩ := h
  exact ⟨a, by omega, by omega, hf⟩

theorem HasRun.le {lo hi k l : Nat} (h : HasRun free lo hi k) (hl : l ≤ k) : HasRun free lo hi l := by
  obtain ⟨a, ha, hb, hf⟩ := h
  exact ⟨a, by omega, by omega, hf.sub (Nat.le_refl _) (by omega)⟩

/-- A leading run ends where the first used page is. -/
theorem LeadIs.bound {lo hi s k : Nat} (h : LeadIs free lo hi s) (hk : lo + k ≤ hi) (hf : AllFree free lo k) : k ≤ s := by
  by_cases c : k ≤ s
  · exact c
  · have h1 := h.2.2 (by omega)
    have h2 := hf (lo + s) (by omega) (by omega)
    rw [h1] at h2; cases h2

theorem TailIs.bound {lo hi t k : Nat} (h : TailIs free lo hi t) (hk : lo + k ≤ hi) (hf : AllFree free (hi - k) k) : k ≤ t := by
  by_cases c : k ≤ t
  · exact c
  · have h1 := h.2.2 (by omega)
    have h2 := hf (hi - t - 1) (by omega) (by omega)
    rw [h1] at h2; cases h2

theorem LeadIs.unique {lo hi s s' : Nat} (h : LeadIs free lo hi s) (h' : LeadIs free lo hi s') : s = s' :=
  Nat.le_antisymm (h'.bound h.1 h.2.1) (h.bound h'.1 h'.2.1)

theorem TailIs.unique {lo hi s s' : Nat} (h : TailIs free lo hi s) (h' : TailIs free lo hi s') : s = s' :=
  Nat.le_antisymm (h'.bound h.1 h.2.1) (h.bound h'.1 h'.2.1)

theorem MaxIs.unique {lo hi s s' : Nat} (h : MaxIs free lo hi s) (h' : MaxIs free lo hi s') : s = s' :=
  Nat.le_antisymm (h'.2 _ h.1) (h.2 _ h'.1)

theorem MaxIs.le {lo hi m : Nat} (h : MaxIs free lo hi m) : lo + m ≤ hi := by
  obtain ⟨a, h1, h2, _⟩ := h.1; omega

theorem LeadIs.full {lo hi s : Nat} (h : LeadIs free lo hi s) (hs : s = hi - lo) : AllFree free lo (hi - lo) := hs ▸ h.2.1

theorem lead_append {lo mid hi s1 s2 : Nat} (h1 : LeadIs free lo mid s1) (h2 : LeadIs free mid hi s2) :
    LeadIs free lo hi (if s1 = mid - lo then s1 + s2 else s1) := by
  obtain ⟨a1, b1, c1⟩ := h1
  obtain ⟨a2, b2, c2⟩ := h2
  split
  · rename_i hs
    have e : lo + s1 = mid := by omega
    refine ⟨by omega, b1.append (by rw [e]; exact b2), fun hlt => ?_⟩
    have := c2 (by omega)
    rw [show lo + (s1 + s2) = mid + s2 by omega]; exact this
  · exact ⟨by omega, b1, fun _ => c1 (by omega)⟩

theorem tail_append {lo mid hi t1 t2 : Nat} (h1 : TailIs free lo mid t1) (h2 : TailIs free mid hi t2) :
    TailIs free lo hi (if t2 = hi - mid then t1 + t2 else t2) := by
  obtain ⟨a1, b1, c1⟩ := h1
  obtain ⟨a2, b2, c2⟩ := h2
  split
  · rename_i hs
    refine ⟨by omega, ?_, fun hlt => ?_⟩
    · have e : hi - (t1 + t2) = mid - t1 := by omega
      rw [e]
      refine b1.append ?_
      rw [show mid - t1 + t1 = hi - t2 by omega]; exact b2
    · have := c1 (by omega)
      rw [show hi - (t1 + t2) - 1 = mid - t1 - 1 by omega]; exact this
  · exact ⟨by omega, b2, fun _ => c2 (by omega)⟩

theorem max_append {lo mid hi m1 t1 s2 m2 : Nat} (hm1 : MaxIs free lo mid m1) (ht1 : TailIs free lo mid t1)
    (hs2 : LeadIs free mid hi s2) (hm2 : MaxIs free mid hi m2) :
    MaxIs free lo hi (Nat.max m1 (Nat.max m2 (t1 + s2))) := by
  have l1 := hm1.le
  have l2 := hm2.le
  constructor
  · have hc : HasRun free lo hi (t1 + s2) := by
      refine ⟨mid - t1, by have := ht1.1; omega, by have := ht1.1; have := hs2.1; omega, ?_⟩
      refine ht1.2.1.append ?_
      have := ht1.1
      rw [show mid - t1 + t1 = mid by omega]; exact hs2.2.1
    have h1 : HasRun free lo hi m1 := hm1.1.mono (Nat.le_refl _) (by omega)
    have h2 : HasRun free lo hi m2 := hm2.1.mono (by omega) (Nat.le_refl _)
    simp only [Nat.max_def]
    repeat' split
    all_goals assumption
  · rintro k ⟨a, ha, hb, hf⟩
    by_cases c1 : a + k ≤ mid
    · exact Nat.le_trans (hm1.2 k ⟨a, ha, c1, hf⟩) (Nat.le_max_left _ _)
    · by_cases c2 : mid ≤ a
      · exact Nat.le_trans (hm2.2 k ⟨a, c2, hb, hf⟩) (Nat.le_trans (Nat.le_max_left _ _) (Nat.le_max_right _ _))
      · have e1 : mid - a ≤ t1 := ht1.bound (by omega) (hf.sub (by omega) (by omega))
        have e2 : a + k - mid ≤ s2 := hs2.bound (by omega) (hf.sub (by omega) (by omega))
        have : k ≤ t1 + s2 := by omega
        exact Nat.le_trans this (Nat.le_trans (Nat.le_max_right _ _) (Nat.le_max_right _ _))

theorem lead_empty (lo : Nat) : LeadIs free lo lo 0 := ⟨by omega, AllFree.zero _, by omega⟩
theorem tail_empty (lo : Nat) : TailIs free lo lo 0 := ⟨by omega, AllFree.zero _, by omega⟩
theorem max_empty (lo : Nat) : MaxIs free lo lo 0 :=
  ⟨HasRun.zero (Nat.le_refl _), fun k ⟨a, h1, h2, _⟩ => by omega⟩

/-- A free region. -/
theorem exact_free {lo hi : Nat} (h : lo ≤ hi) (hf : AllFree free lo (hi - lo)) :
    Exact free lo hi ⟨hi - lo, hi - lo, hi - lo⟩ := by
  refine ⟨⟨by simp; omega, hf, by simp; omega⟩, ⟨by simp; omega, ?_, by simp; omega⟩,
    ⟨⟨lo, Nat.le_refl _, by simp; omega, hf⟩, fun k ⟨a, h1, h2, _⟩ => by simp; omega⟩⟩
  simp only
  rw [show hi - (hi - lo) = lo by omega]; exact hf

/-- A region without any free page. -/
theorem exact_none {lo hi : Nat} (h : lo ≤ hi) (hf : ∀ i, lo ≤ i → i < hi → free i = false) :
    Exact free lo hi ⟨0, 0, 0⟩ := by
  refine ⟨⟨by simp; omega, AllFree.zero _, fun hh => hf _ (by simp) (by simpa using hh)⟩,
    ⟨by simp; omega, AllFree.zero _, fun hh => hf _ (by simp at hh ⊢; omega) (by simp at hh ⊢; omega)⟩,
    ⟨HasRun.zero h, ?_⟩⟩
  rintro k ⟨a, h1, h2, h3⟩
  by_cases c : k = 0
  · simp [c]
  · have := h3 a (Nat.le_refl _) (by omega)
    rw [hf a h1 (by omega)] at this; cases this

theorem Exact.unique {lo hi : Nat} {s s' : Summary} (h : Exact free lo hi s) (h' : Exact free lo hi s') : s = s' := by
  cases s; cases s'
  have a := h.lead.unique h'.lead
  have b := h.tail.unique h'.tail
  have c := h.max.unique h'.max
  simp_all

/-- `Exact` depends only on the pages of the region. -/
theorem Exact.congr {free free' : Nat → Bool} {lo hi : Nat} {s : Summary} (h : Exact free lo hi s)
    (he : ∀ i, lo ≤ i → i < hi → free' i = free i) : Exact free' lo hi s := by
  have af : ∀ a k, lo ≤ a → a + k ≤ hi → (AllFree free' a k ↔ AllFree free a k) := by
    intro a k h1 h2
    constructor
    · intro hf i hi1 hi2; rw [← he i (by omega) (by omega)]; exact hf i hi1 hi2
    · intro hf i hi1 hi2; rw [he i (by omega) (by omega)]; exact hf i hi1 hi2
  have hr : ∀ k, HasRun free' lo hi k ↔ HasRun free lo hi k := by
    intro k
    constructor
    · rintro ⟨a, h1, h2, h3⟩; exact ⟨a, h1, h2, (af a k h1 h2).1 h3⟩
    · rintro ⟨a, h1, h2, h3⟩; exact ⟨a, h1, h2, (af a k h1 h2).2 h3⟩
  obtain ⟨⟨a1, a2, a3⟩, ⟨b1, b2, b3⟩, ⟨c1, c2⟩⟩ := h
  exact ⟨⟨a1, (af _ _ (Nat.le_refl _) a1).2 a2, fun h => by rw [he _ (by omega) h]; exact a3 h⟩,
    ⟨b1, (af _ _ (by omega) (by omega)).2 b2, fun h => by rw [he _ (by omega) (by omega)]; exact b3 h⟩,
    ⟨(hr _).2 c1, fun k hk => c2 k ((hr k).1 hk)⟩⟩

end Nature.PageAlloc
