import Verif.Sched.Spec
/-
Reordering instructions that do not touch the same places.
-/
namespace Nature.Sched

/-- Two instructions that can be exchanged. -/
def Indep (a b : Op) : Prop :=
  (∀ l ∈ a.writes, l ∉ b.reads ∧ l ∉ b.writes) ∧ (∀ l ∈ b.writes, l ∉ a.reads ∧ l ∉ a.writes)

theorem swap {V : Type} (m : Meaning V) {a b : Op} (ha : ¬ a.barrier) (hb : ¬ b.barrier) (h : Indep a b) (s : State V) :
    m.exec b (m.exec a s) = m.exec a (m.exec b s) := by
  funext l
  by_cases h1 : l ∈ a.writes
  · have h2 := (h.1 l h1).2
    rw [m.frame b _ l hb h2]
    refine m.depends a _ _ l ha h1 ?_
    intro x hx
    refine (m.frame b s x hb ?_).symm
    intro hxb
    rcases hx with hx | hx
    · exact (h.2 x hxb).1 hx
    · exact (h.2 x hxb).2 hx
  · rw [m.frame a _ l ha h1]
    by_cases h2 : l ∈ b.writes
    · refine m.depends b _ _ l hb h2 ?_
      intro x hx
      refine m.frame a s x ha ?_
      intro hxa
      rcases hx with hx | hx
      · exact (h.1 x hxa).1 hx
      · exact (h.1 x hxa).2 hx
    · rw [m.frame b _ l hb h2, m.frame b _ l hb h2, m.frame a _ l ha h1]

theorem run_append {V : Type} (m : Meaning V) (xs ys : List Op) (s : State V) : run m (xs ++ ys) s = run m ys (run m xs s) := by
  induction xs generalizing s with
  | nil => rfl
  | cons x xs ih => exact ih _

theorem bubble {V : Type} (m : Meaning V) {p : Op} (hp : ¬ p.barrier) {xs : List Op} (hx : ∀ x ∈ xs, ¬ x.barrier ∧ Indep x p)
    (s : State V) : run m (xs ++ [p]) s = run m (p :: xs) s := by
  induction xs generalizing s with
  | nil => rfl
  | cons x xs ih =>
    have h := hx x List.mem_cons_self
    have := ih (fun y hy => hx y (List.mem_cons_of_mem _ hy)) (m.exec x s)
    show run m (xs ++ [p]) (m.exec x s) = run m xs (m.exec x (m.exec p s))
    rw [this]
    show run m xs (m.exec p (m.exec x s)) = _
    rw [swap m h.1 hp h.2]

theorem reorder {V : Type} (m : Meaning V) (f : Nat → Op) :
    ∀ (π l : List Nat), l.Nodup → π.Nodup → (∀ x, x ∈ π ↔ x ∈ l) → (∀ i ∈ l, ¬ (f i).barrier) →
      (∀ i j, List.Sublist [i, j] l → ¬ Indep (f i) (f j) → π.idxOf i < π.idxOf j) →
      ∀ s, run m (l.map f) s = run m (π.map f) s := by
  intro π
  induction π with
  | nil =>
    intro l _ _ hm _ _ s
    have : l = [] := List.eq_nil_iff_forall_not_mem.mpr fun x hx => List.not_mem_nil ((hm x).mpr hx)
    subst this; rfl
  | cons p π ih =>
    intro l hl hπ hm hfix hord s
    obtain ⟨x, y, rfl⟩ := List.append_of_mem ((hm p).mp List.mem_cons_self)
    have hnd := List.nodup_append.mp hl
    have hpy := (List.nodup_cons.mp hnd.2.1).1
    have hpx : p ∉ x := fun h => hnd.2.2 p h p List.mem_cons_self rfl
    have hpπ := (List.nodup_cons.mp hπ).1
    have hind : ∀ i ∈ x, Indep (f i) (f p) := by
      intro i hi
      refine Classical.byContradiction fun hc => ?_
      have hs : List.Sublist [i, p] (x ++ p :: y) := by
        have h1 : List.Sublist [i] x := List.singleton_sublist.mpr hi
        have h2 : List.Sublist [p] (p :: y) := List.singleton_sublist.mpr List.mem_cons_self
        exact List.Sublist.append h1 h2
      have := hord i p hs hc
      rw [List.idxOf_cons_self] at this
      omega
    have hsub : List.Sublist (x ++ y) (x ++ p :: y) := List.Sublist.append (List.Sublist.refl x) (List.sublist_cons_self p y)
    have hl' : (x ++ y).Nodup := hl.sublist hsub
    have hne : ∀ i ∈ x ++ y, i ≠ p := by
      intro i hi e
      subst e
      rcases List.mem_append.mp hi with h | h
      · exact hpx h
      · exact hpy h
    have := ih (x ++ y) hl' (List.nodup_cons.mp hπ).2 (by
      intro z
      have := hm z
      simp only [List.mem_cons, List.mem_append] at this ⊢
      constructor
      · intro hz
        have hzp : z ≠ p := fun e => hpπ (e ▸ hz)
        rcases this.mp (Or.inr hz) with h | h | h
        · exact Or.inl h
        · exact (hzp h).elim
        · exact Or.inr h
      · intro hz
        have hzp : z ≠ p := hne z (List.mem_append.mpr hz)
        rcases this.mpr (hz.elim Or.inl (fun h => Or.inr (Or.inr h))) with h | h
        · exact (hzp h).elim
        · exact h) (fun i hi => hfix i (hsub.subset hi)) (by
      intro i j hs hc
      have h1 := hord i j (hs.trans hsub) hc
      have hi := hne i (hs.subset (by simp))
      have hj := hne j (hs.subset (by simp))
      have ei : (p == i) = false := by simpa using Ne.symm hi
      have ej : (p == j) = false := by simpa using Ne.symm hj
      rw [List.idxOf_cons, List.idxOf_cons, ei, ej] at h1
      simp only [cond_false] at h1
      omega)
    have hb := bubble m (p := f p) (hfix p (by simp)) (xs := x.map f) (by
      intro o ho
      obtain ⟨i, hi, rfl⟩ := List.mem_map.mp ho
      exact ⟨hfix i (by simp [hi]), hind i hi⟩) s
    have e1 : (x ++ p :: y).map f = (x.map f ++ [f p]) ++ y.map f := by simp
    rw [e1, run_append, hb]
    show run m (y.map f) (run m (x.map f) (m.exec (f p) s)) = run m (π.map f) (m.exec (f p) s)
    rw [← run_append, ← List.map_append]
    exact this _

end Nature.Sched
