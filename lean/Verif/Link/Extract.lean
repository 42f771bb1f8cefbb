import Verif.Link.Define

/-!
# The extraction of archive members
-/

namespace Nature.Link

open Spec (Has Defines Requests Needs Useful Grown)

theorem rank_some (t : Table) (s : Sym) (r : Nat) (h : rank t s = some r)
    (hc : (t s.name).definition ≠ none → (t s.name).common = false) :
    (∀ u, s.kind ≠ .undefined u) ∧ (t s.name).definition = none ∧
      ((t s.name).strongReference = true ∨
        s.kind = .regular ∧ (t s.name).common = true ∧ (t s.name).commonReference = true) := by
  obtain ⟨n, k, w⟩ := s
  have hd : ∀ isCommon : Bool, ¬ ((t n).definition.isSome && !(t n).common) = true →
      (t n).definition = none := by
    intro _ hx
    rcases hq : (t n).definition with _ | d
    · rfl
    · exfalso; apply hx
      have := hc (by simp [hq])
      simp only at this
      simp [hq, this]
  cases k with
  | undefined u => simp [rank] at h
  | common a b c =>
    simp only [rank] at h
    split at h
    · simp at h
    · rename_i hx
      split at h
      · simp at h
      · rename_i hy
        refine ⟨by simp, hd true hy, Or.inl ?_⟩
        simp only at hx ⊢
        revert hx
        cases (t n).strongReference <;> simp
  | regular =>
    simp only [rank] at h
    split at h
    · simp at h
    · rename_i hx
      split at h
      · simp at h
      · rename_i hy
        refine ⟨by simp, hd true hy, ?_⟩
        simp only at hx ⊢
        revert hx
        cases (t n).strongReference <;> cases (t n).common <;> cases (t n).commonReference <;> simp

theorem rank_none (t : Table) (s : Sym) (h : rank t s = none) (hk : ∀ u, s.kind ≠ .undefined u)
    (hd : (t s.name).definition = none) :
    (t s.name).strongReference = false ∧
      (s.kind = .regular → ¬ ((t s.name).common = true ∧ (t s.name).commonReference = true)) := by
  obtain ⟨n, k, w⟩ := s
  simp only at hd
  cases k with
  | undefined u => exact absurd rfl (hk u)
  | common a b c =>
    simp only [rank, hd] at h
    refine ⟨?_, by simp⟩
    simp only
    revert h
    cases (t n).strongReference <;> simp
  | regular =>
    simp only [rank, hd] at h
    simp only
    revert h
    cases (t n).strongReference <;> cases (t n).common <;> cases (t n).commonReference <;> simp

theorem pick_some (t : Table) (L : List (Pos × Sym)) (best : Option (Nat × Nat)) (i r : Nat)
    (h : L.foldl (pick t) best = some (i, r)) :
    best = some (i, r) ∨ ∃ e ∈ L, e.1.1 = i ∧ rank t e.2 = some r := by
  induction L generalizing best with
  | nil => exact Or.inl h
  | cons e L ih =>
    rw [List.foldl_cons] at h
    rcases ih _ h with hb | ⟨e', h1, h2⟩
    · unfold pick at hb
      split at hb
      · exact Or.inl hb
      · rename_i r' hr
        split at hb
        · simp only [Option.some.injEq, Prod.mk.injEq] at hb
          exact Or.inr ⟨e, by simp, hb.1, by rw [hr, hb.2]⟩
        · split at hb
          · simp only [Option.some.injEq, Prod.mk.injEq] at hb
            exact Or.inr ⟨e, by simp, hb.1, by rw [hr, hb.2]⟩
          · exact Or.inl hb
    · exact Or.inr ⟨e', by simp [h1], h2⟩

theorem pick_none (t : Table) (L : List (Pos × Sym)) (best : Option (Nat × Nat))
    (h : L.foldl (pick t) best = none) : best = none ∧ ∀ e ∈ L, rank t e.2 = none := by
  induction L generalizing best with
  | nil => exact ⟨h, by simp⟩
  | cons e L ih =>
    rw [List.foldl_cons] at h
    obtain ⟨h1, h2⟩ := ih _ h
    have h3 : best = none ∧ rank t e.2 = none := by
      unfold pick at h1
      split at h1
      · rename_i hr; exact ⟨h1, hr⟩
      · split at h1
        · simp at h1
        · split at h1
          · simp at h1
          · simp at h1
    refine ⟨h3.1, ?_⟩
    intro x hx
    rcases List.mem_cons.mp hx with rfl | hx
    · exact h3.2
    · exact h2 x hx

theorem mem_lazy (objs : List Obj) (sel : Nat → Bool) (p : Pos) (s : Sym) :
    (p, s) ∈ entriesFrom (fun i o => o.isLazy && !sel i) 0 objs ↔
      sel p.1 = false ∧ ∃ o, objs[p.1]? = some o ∧ o.isLazy = true ∧ o.syms[p.2]? = some s := by
  rw [mem_entriesFrom]
  constructor
  · rintro ⟨k, o, h1, h2, h3, h4⟩
    have e : p.1 = k := by omega
    simp only [Bool.and_eq_true, Bool.not_eq_true'] at h3
    exact ⟨h3.2, o, by rw [e]; exact h2, h3.1, h4⟩
  · rintro ⟨h1, o, h2, h3, h4⟩
    exact ⟨p.1, o, by omega, h2, by simp [h1, h3], h4⟩

theorem countP_lt {α : Type} (f g : α → Bool) (l : List α) (hle : ∀ x, g x = true → f x = true)
    (x : α) (hx : x ∈ l) (h1 : f x = true) (h2 : g x = false) : l.countP g < l.countP f := by
  induction l with
  | nil => simp at hx
  | cons a l ih =>
    have hmono : l.countP g ≤ l.countP f := List.countP_mono_left fun y _ hy => hle y hy
    simp only [List.countP_cons]
    rcases List.mem_cons.mp hx with rfl | hx
    · simp [h1, h2]; omega
    · have := ih hx
      have : (if g a = true then 1 else 0) ≤ (if f a = true then 1 else 0) := by
        split
        · rename_i hg; simp [hle a hg]
        · omega
      omega

/-- A member is picked only if it is useful. -/
theorem useful_of_pick (objs : List Obj) (entry : String) (sel : Nat → Bool) (t : Table)
    (ht : ∀ n, Told (entries objs sel) n (t n) ∧
        ((t n).strongReference = true ↔ Needs objs entry sel n) ∧
        ((t n).entryReference = true ↔ n = entry)) (i r : Nat)
    (h : (entriesFrom (fun i o => o.isLazy && !sel i) 0 objs).foldl (pick t) none = some (i, r)) :
    Useful objs entry sel i ∧ i < objs.length := by
  rcases pick_some t _ none i r h with h | ⟨⟨p, s⟩, he, hi, hr⟩
  · simp at h
  · obtain ⟨h1, o, h2, h3, h4⟩ := (mem_lazy objs sel p s).mp he
    simp only at hi hr
    obtain ⟨i', j⟩ := p
    simp only at hi h1 h2 h4
    subst hi
    obtain ⟨k1, k2, k3⟩ := rank_some t s r hr (ht s.name).1.notCommon
    refine ⟨⟨h1, ⟨o, h2, h3⟩, j, s, ⟨o, h2, h4⟩, ?_, ?_⟩, ?_⟩
    · intro w p hd
      exact (ht s.name).1.noneRegular k2 p w ((mem_entries _ _ _ _).mpr hd)
    · rcases k3 with k3 | ⟨k3, k4, k5⟩
      · exact Or.inl ⟨(ht s.name).2.1.mp k3, k1⟩
      · right
        obtain ⟨p, a, b, c, hm⟩ := ((ht s.name).1.commonReference k2).mp k5
        obtain ⟨m1, m2⟩ := (mem_entries _ _ _ _).mp hm
        exact ⟨k3, a, b, c, p, m1, m2⟩
    · exact (List.getElem?_eq_some_iff.mp h2).1

theorem extract_spec (objs : List Obj) (entry : String) (fuel : Nat) (sel : Nat → Bool)
    (hg : Grown objs entry sel)
    (hf : (List.range objs.length).countP (fun i => !sel i) < fuel) :
    match extract objs entry fuel sel with
    | .ok (sel', t) => Grown objs entry sel' ∧
        (∀ n, Told (entries objs sel') n (t n) ∧
          ((t n).strongReference = true ↔ Needs objs entry sel' n) ∧
          ((t n).entryReference = true ↔ n = entry)) ∧
        ∀ e ∈ entriesFrom (fun i o => o.isLazy && !sel' i) 0 objs, rank t e.2 = none
    | .error err => ∃ sel', Grown objs entry sel' ∧ Clash (entries objs sel') err := by
  induction fuel generalizing sel with
  | zero => omega
  | succ fuel ih =>
    rw [extract]
    have hr := rebuild_told objs entry sel
    rcases he : rebuild objs entry sel with err | t
    · rw [he] at hr
      exact ⟨sel, hg, hr⟩
    · rw [he] at hr
      simp only at hr ⊢
      rcases hp : (entriesFrom (fun i o => o.isLazy && !sel i) 0 objs).foldl (pick t) none with _ | ⟨i, r⟩
      · simp only
        exact ⟨hg, hr, (pick_none t _ _ hp).2⟩
      · simp only
        obtain ⟨hu, hi⟩ := useful_of_pick objs entry sel t hr i r hp
        refine ih _ (Grown.add hg hu) ?_
        have := countP_lt (fun k => !sel k) (fun k => !(if k = i then true else sel k))
          (List.range objs.length) (by
            intro x hx
            simp only [Bool.not_eq_true'] at hx ⊢
            split at hx
            · simp at hx
            · exact hx) i (by simp [hi]) (by simp [hu.1]) (by simp)
        omega

end Nature.Link
