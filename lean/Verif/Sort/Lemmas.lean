import Verif.Sort.Spec
/-! Permutations of a range, and the loops of `sort`. -/
namespace Nature.Sort

variable {α : Type}

/-- `g` is `f` with the positions of `[a, b)` permuted. -/
def PermOn (a b : Nat) (f g : Nat → α) : Prop :=
  ∃ σ τ : Nat → Nat, (∀ k, τ (σ k) = k) ∧ (∀ k, σ (τ k) = k) ∧
    (∀ k, (k < a ∨ b ≤ k) → σ k = k) ∧ ∀ k, g k = f (σ k)

theorem PermOn.refl (a b : Nat) (f : Nat → α) : PermOn a b f f :=
  ⟨id, id, fun _ => rfl, fun _ => rfl, fun _ _ => rfl, fun _ => rfl⟩

theorem PermOn.trans {a b : Nat} {f g h : Nat → α} (h1 : PermOn a b f g) (h2 : PermOn a b g h) :
    PermOn a b f h := by
  obtain ⟨σ, τ, a1, a2, a3, a4⟩ := h1
  obtain ⟨σ', τ', b1, b2, b3, b4⟩ := h2
  refine ⟨σ ∘ σ', τ' ∘ τ, ?_, ?_, ?_, ?_⟩
  · intro k; simp [a1, b1]
  · intro k; simp [a2, b2]
  · intro k hk; simp [b3 k hk, a3 k hk]
  · intro k; simp [b4, a4]

theorem PermOn.mono {a b a' b' : Nat} {f g : Nat → α} (h : PermOn a b f g) (h1 : a' ≤ a)
    (h2 : b ≤ b') : PermOn a' b' f g := by
  obtain ⟨σ, τ, a1, a2, a3, a4⟩ := h
  exact ⟨σ, τ, a1, a2, fun k hk => a3 k (by omega), a4⟩

theorem PermOn.out {a b : Nat} {f g : Nat → α} (h : PermOn a b f g) {k : Nat}
    (hk : k < a ∨ b ≤ k) : g k = f k := by
  obtain ⟨σ, τ, a1, a2, a3, a4⟩ := h
  rw [a4, a3 k hk]

theorem PermOn.src {a b : Nat} {f g : Nat → α} (h : PermOn a b f g) {k : Nat}
    (h1 : a ≤ k) (h2 : k < b) : ∃ m, a ≤ m ∧ m < b ∧ g k = f m := by
  obtain ⟨σ, τ, a1, a2, a3, a4⟩ := h
  refine ⟨σ k, ?_, ?_, a4 k⟩
  all_goals
    rcases Nat.lt_or_ge (σ k) a with h3 | h3
    · have := a3 _ (.inl h3)
      have := congrArg τ this
      rw [a1, a1] at this
      omega
    · rcases Nat.lt_or_ge (σ k) b with h4 | h4
      · omega
      · have := a3 _ (.inr h4)
        have := congrArg τ this
        rw [a1, a1] at this
        omega

theorem PermOn.all {a b : Nat} {f g : Nat → α} (h : PermOn a b f g) {P : α → Prop}
    (hP : ∀ k, a ≤ k → k < b → P (f k)) : ∀ k, a ≤ k → k < b → P (g k) := by
  intro k h1 h2
  obtain ⟨m, m1, m2, e⟩ := h.src h1 h2
  rw [e]; exact hP m m1 m2

theorem PermOn.exch {a b i j : Nat} (f : Nat → α) (hi : a ≤ i) (hi' : i < b) (hj : a ≤ j) (hj' : j < b) :
    PermOn a b f (exch f i j) := by
  refine ⟨fun k => if k = i then j else if k = j then i else k,
    fun k => if k = i then j else if k = j then i else k, ?_, ?_, ?_, ?_⟩
  · intro k; simp only; split
    · subst_vars; split <;> simp_all
    · split <;> simp_all
  · intro k; simp only; split
    · subst_vars; split <;> simp_all
    · split <;> simp_all
  · intro k hk; simp only; rw [if_neg (by omega), if_neg (by omega)]
  · intro k; simp only [Sort.exch]; split
    · rfl
    · split <;> rfl

theorem PermOn.perm {n : Nat} {f g : Nat → α} (h : PermOn 0 n f g) :
    ((List.range n).map g).Perm ((List.range n).map f) := by
  obtain ⟨σ, τ, a1, a2, a3, a4⟩ := h
  have inj : ∀ x y, σ x = σ y → x = y := by
    intro x y h; have := congrArg τ h; rwa [a1, a1] at this
  have e : (List.range n).map g = ((List.range n).map σ).map f := by
    rw [List.map_map]; congr 1; funext k; exact a4 k
  rw [e]
  refine List.Perm.map _ ?_
  have lt : ∀ k, k < n → σ k < n := by
    intro k hk
    rcases Nat.lt_or_ge (σ k) n with h | h
    · exact h
    · have := inj _ _ (a3 _ (.inr h)); omega
  have lt' : ∀ k, k < n → τ k < n := by
    intro k hk
    rcases Nat.lt_or_ge (τ k) n with h | h
    · exact h
    · have := a3 _ (.inr h); rw [a2] at this; omega
  have nd : ((List.range n).map σ).Nodup := by
    rw [List.nodup_iff_pairwise_ne, List.pairwise_map]
    exact List.Pairwise.imp (fun hxy e => hxy (inj _ _ e)) List.nodup_range
  rw [List.perm_ext_iff_of_nodup nd List.nodup_range]
  intro x
  simp only [List.mem_map, List.mem_range]
  constructor
  · rintro ⟨k, hk, rfl⟩; exact lt k hk
  · intro hx; exact ⟨τ x, lt' x hx, a2 x⟩

/-! ### Primitive steps -/

theorem less_ok {lt : α → α → Bool} {v : V α} {i j : Nat} (hi : i < v.n) (hj : j < v.n) :
    less lt v i j = some (lt (v.f i) (v.f j)) := by simp [less, hi, hj]

theorem exch_self (f : Nat → α) (i : Nat) : exch f i i = f := by
  funext k; simp only [exch]; split
  · subst_vars; rfl
  · rfl

theorem swap_ok {v : V α} {i j : Nat} (hi : i < v.n) (hj : j < v.n) :
    swap v i j = some { v with f := exch v.f i j } := by
  unfold swap
  split
  · subst_vars; rw [exch_self]
  · simp [hi, hj]

theorem exch_l (f : Nat → α) (i j : Nat) : exch f i j i = f j := by simp [exch]
theorem exch_r (f : Nat → α) (i j : Nat) : exch f i j j = f i := by
  simp only [exch]; split
  · subst_vars; rfl
  · simp
theorem exch_o (f : Nat → α) {i j k : Nat} (h1 : k ≠ i) (h2 : k ≠ j) : exch f i j k = f k := by
  simp [exch, h1, h2]

theorem WeakOrder.asymm {lt : α → α → Bool} (w : WeakOrder lt) {a b : α} (h : lt a b = true) :
    lt b a = false := by
  rcases Bool.eq_false_or_eq_true (lt b a) with h1 | h1
  · have := w.trans a b a h h1; rw [w.irrefl] at this; cases this
  · exact h1

/-- `[a, b)` is in order. -/
def SortedOn (lt : α → α → Bool) (f : Nat → α) (a b : Nat) : Prop :=
  ∀ p q, a ≤ p → p < q → q < b → lt (f q) (f p) = false

/-! ### Insertion sort -/

theorem insInner_spec (lt : α → α → Bool) (a : Nat) : ∀ (j : Nat) (v : V α) (m : Nat),
    j ≤ m → m < v.n → a ≤ j →
    ∃ v', insInner lt a j v = some v' ∧ v'.n = v.n ∧ PermOn a (m + 1) v.f v'.f ∧
      (WeakOrder lt → (∀ p q, a ≤ p → p < q → q ≤ m → q ≠ j → lt (v.f q) (v.f p) = false) →
        SortedOn lt v'.f a (m + 1)) := by
  intro j
  induction j with
  | zero =>
    intro v m h1 h2 h3
    refine ⟨v, rfl, rfl, PermOn.refl _ _ _, ?_⟩
    intro _ hs p q hp hpq hq
    exact hs p q hp hpq (by omega) (by omega)
  | succ j ih =>
    intro v m h1 h2 h3
    rw [insInner]
    split
    · rename_i hja
      rw [less_ok (by omega) (by omega)]
      simp only [Option.bind_some]
      split
      · rename_i hlt
        rw [swap_ok (by omega) (by omega)]
        simp only [Option.bind_some]
        obtain ⟨v', e, hn, hp, hs⟩ := ih { v with f := exch v.f (j + 1) j } m (by omega) h2 (by omega)
        refine ⟨v', e, hn, ?_, ?_⟩
        · exact (PermOn.exch v.f (by omega) (by omega) (by omega) (by omega)).trans hp
        · intro w hso
          refine hs w ?_
          intro p q hp hpq hq hqj
          simp only
          by_cases hq1 : q = j + 1
          · subst hq1
            rw [exch_l]
            by_cases hpj : p = j
            · subst hpj; rw [exch_r]; exact w.asymm hlt
            · rw [exch_o _ (by omega) hpj]
              exact hso p j hp (by omega) (by omega) (by omega)
          · rw [exch_o _ hq1 hqj]
            by_cases hp1 : p = j + 1
            · subst hp1; rw [exch_l]; exact hso j q (by omega) (by omega) hq hq1
            · by_cases hpj : p = j
              · subst hpj; rw [exch_r]; exact hso (p+1) q (by omega) (by omega) hq hq1
              · rw [exch_o _ hp1 hpj]; exact hso p q hp hpq hq hq1
      · rename_i hlt
        refine ⟨v, rfl, rfl, PermOn.refl _ _ _, ?_⟩
        intro w hso p q hp hpq hq
        by_cases hq1 : q = j + 1
        · subst hq1
          have h0 : lt (v.f (j+1)) (v.f j) = false := by simpa using hlt
          by_cases hpj : p = j
          · subst hpj; exact h0
          · exact w.negTrans _ _ _ h0 (hso p j hp (by omega) (by omega) (by omega))
        · exact hso p q hp hpq (by omega) hq1
    · refine ⟨v, rfl, rfl, PermOn.refl _ _ _, ?_⟩
      intro w hso p q hp hpq hq
      exact hso p q hp hpq (by omega) (by omega)

theorem insOuter_spec (lt : α → α → Bool) (a : Nat) : ∀ (k i : Nat) (v : V α),
    a ≤ i → i + k ≤ v.n →
    ∃ v', insOuter lt a k i v = some v' ∧ v'.n = v.n ∧ PermOn a (i + k) v.f v'.f ∧
      (WeakOrder lt → SortedOn lt v.f a i → SortedOn lt v'.f a (i + k)) := by
  intro k
  induction k with
  | zero =>
    intro i v h1 h2
    exact ⟨v, rfl, rfl, PermOn.refl _ _ _, fun _ h => h⟩
  | succ k ih =>
    intro i v h1 h2
    obtain ⟨v1, e1, n1, p1, s1⟩ := insInner_spec lt a i v i (Nat.le_refl _) (by omega) h1
    obtain ⟨v2, e2, n2, p2, s2⟩ := ih (i + 1) v1 (by omega) (by omega)
    refine ⟨v2, ?_, by omega, ?_, ?_⟩
    · rw [insOuter, e1]; exact e2
    · have : i + (k + 1) = i + 1 + k := by omega
      rw [this]
      exact (p1.mono (Nat.le_refl _) (by omega)).trans p2
    · intro w hs
      have : i + (k + 1) = i + 1 + k := by omega
      rw [this]
      exact s2 w (s1 w fun p q hp hpq hq hqi => hs p q hp hpq (by omega))

theorem insertionSort_spec (lt : α → α → Bool) (v : V α) (a b : Nat) (hb : b ≤ v.n) :
    ∃ v', insertionSort lt v a b = some v' ∧ v'.n = v.n ∧ PermOn a b v.f v'.f ∧
      (WeakOrder lt → SortedOn lt v'.f a b) := by
  rcases Nat.lt_or_ge (a + 1) b with h | h
  · obtain ⟨v', e, n, p, s⟩ := insOuter_spec lt a (b - (a + 1)) (a + 1) v (by omega) (by omega)
    have hx : a + 1 + (b - (a + 1)) = b := by omega
    rw [hx] at p s
    refine ⟨v', e, n, p, fun w => s w ?_⟩
    intro p q hp hpq hq; omega
  · have : b - (a + 1) = 0 := by omega
    refine ⟨v, ?_, rfl, PermOn.refl _ _ _, ?_⟩
    · rw [insertionSort, this]; rfl
    · intro _ p q hp hpq hq; omega

/-! ### Heap sort -/

/-- Children of `p ≥ lo` (other than `ex`) inside the heap are not greater. -/
def HeapX (lt : α → α → Bool) (h : Nat → α) (lo hi : Nat) (ex : Nat → Prop) : Prop :=
  ∀ p c, lo ≤ p → ¬ ex p → (c = 2 * p + 1 ∨ c = 2 * p + 1 + 1) → c < hi → lt (h p) (h c) = false

theorem siftDown_spec (lt : α → α → Bool) (hi first : Nat) : ∀ (d root : Nat) (v : V α) (lo : Nat),
    hi - root ≤ d → first + hi ≤ v.n → lo ≤ root →
    ∃ v', siftDown lt v root hi first = some v' ∧ v'.n = v.n ∧ PermOn first (first + hi) v.f v'.f ∧
      (WeakOrder lt →
        HeapX lt (fun k => v.f (first + k)) lo hi (fun p => p = root) →
        (∀ p c, lo ≤ p → (root = 2 * p + 1 ∨ root = 2 * p + 1 + 1) →
          (c = 2 * root + 1 ∨ c = 2 * root + 1 + 1) → c < hi →
          lt (v.f (first + p)) (v.f (first + c)) = false) →
        HeapX lt (fun k => v'.f (first + k)) lo hi (fun _ => False)) := by
  intro d
  induction d with
  | zero =>
    intro root v lo h1 h2 h3
    rw [siftDown, if_pos (by omega)]
    refine ⟨v, rfl, rfl, PermOn.refl _ _ _, ?_⟩
    intro w hx _ p c hp _ hc hch
    exact hx p c hp (by omega) hc hch
  | succ d ih =>
    intro root v lo h1 h2 h3
    rw [siftDown]
    split
    · refine ⟨v, rfl, rfl, PermOn.refl _ _ _, ?_⟩
      intro w hx _ p c hp _ hc hch
      exact hx p c hp (by omega) hc hch
    · rename_i hch
      -- choose the child
      have key : ∃ r : Bool, (if 2 * root + 1 + 1 < hi then
            less lt v (first + (2 * root + 1)) (first + (2 * root + 1) + 1) else some false) = some r ∧
          ((if r then 2 * root + 1 + 1 else 2 * root + 1) < hi) ∧
          (r = true → lt (v.f (first + (2 * root + 1))) (v.f (first + (2 * root + 1 + 1))) = true) ∧
          (r = false → 2 * root + 1 + 1 < hi →
            lt (v.f (first + (2 * root + 1))) (v.f (first + (2 * root + 1 + 1))) = false) := by
        by_cases h : 2 * root + 1 + 1 < hi
        · rw [if_pos h, less_ok (by omega) (by omega)]
          refine ⟨_, rfl, ?_, ?_, ?_⟩
          · split <;> omega
          · intro h; exact h
          · intro h _; exact h
        · rw [if_neg h]
          exact ⟨false, rfl, by simp; omega, fun h => (by cases h), fun _ h' => absurd h' h⟩
      obtain ⟨r, er, hlt, hr1, hr2⟩ := key
      rw [er]
      simp only [Option.bind_some]
      generalize hc : (if r = true then 2 * root + 1 + 1 else 2 * root + 1) = c at *
      have hc2 : c = 2 * root + 1 ∨ c = 2 * root + 1 + 1 := by subst hc; split <;> simp
      rw [less_ok (by omega) (by omega)]
      simp only [Option.bind_some]
      -- the other child is not greater than the chosen one
      have sib : WeakOrder lt → ∀ o, (o = 2 * root + 1 ∨ o = 2 * root + 1 + 1) → o < hi →
          lt (v.f (first + c)) (v.f (first + o)) = false := by
        intro w o ho hoh
        by_cases hoc : o = c
        · subst hoc; exact w.irrefl _
        · cases r with
          | true =>
            simp only [if_true] at hc
            have : o = 2 * root + 1 := by omega
            subst this; subst hc
            exact w.asymm (hr1 rfl)
          | false =>
            simp only [Bool.false_eq_true, if_false] at hc
            have : o = 2 * root + 1 + 1 := by omega
            subst this; subst hc
            exact hr2 rfl hoh
      split
      · rename_i hs
        have hs' : lt (v.f (first + root)) (v.f (first + c)) = false := by simpa using hs
        refine ⟨v, rfl, rfl, PermOn.refl _ _ _, ?_⟩
        intro w hx _ p o hp _ ho hoh
        by_cases hpr : p = root
        · subst hpr
          exact w.negTrans _ _ _ hs' (sib w o ho hoh)
        · exact hx p o hp hpr ho hoh
      · rename_i hs
        have hs' : lt (v.f (first + root)) (v.f (first + c)) = true := by simpa using hs
        rw [swap_ok (by omega) (by omega)]
        simp only [Option.bind_some]
        obtain ⟨v', e, hn, hp, hh⟩ := ih c { v with f := exch v.f (first + root) (first + c) } lo
          (by omega) h2 (by omega)
        refine ⟨v', e, hn, ?_, ?_⟩
        · exact (PermOn.exch v.f (by omega) (by omega) (by omega) (by omega)).trans hp
        · intro w hx hg
          refine hh w ?_ ?_
          · intro p o hpl hpc ho hoh
            simp only
            by_cases hpr : p = root
            · subst hpr
              rw [exch_l]
              by_cases hoc : o = c
              · subst hoc; rw [exch_r]; exact w.asymm hs'
              · rw [exch_o _ (by omega) (by omega)]; exact sib w o ho hoh
            · rw [exch_o _ (by omega) (by omega)]
              by_cases hor : o = root
              · subst hor; rw [exch_l]; exact hg p c hpl (by omega) hc2 hlt
              · rw [exch_o _ (by omega) (by omega)]
                exact hx p o hpl hpr ho hoh
          · intro p o hpl hcp hoc hoh
            simp only
            have hpr : p = root := by omega
            subst hpr
            rw [exch_l, exch_o _ (by omega) (by omega)]
            exact hx c o (by omega) (by omega) hoc hoh

theorem heapify_spec (lt : α → α → Bool) (hi first : Nat) : ∀ (k : Nat) (v : V α),
    first + hi ≤ v.n →
    ∃ v', heapify lt hi first k v = some v' ∧ v'.n = v.n ∧ PermOn first (first + hi) v.f v'.f ∧
      (WeakOrder lt → HeapX lt (fun k => v.f (first + k)) k hi (fun _ => False) →
        HeapX lt (fun k => v'.f (first + k)) 0 hi (fun _ => False)) := by
  intro k
  induction k with
  | zero =>
    intro v h
    exact ⟨v, rfl, rfl, PermOn.refl _ _ _, fun _ h => h⟩
  | succ k ih =>
    intro v h
    obtain ⟨v1, e1, n1, p1, s1⟩ := siftDown_spec lt hi first hi k v k (by omega) h (Nat.le_refl _)
    obtain ⟨v2, e2, n2, p2, s2⟩ := ih v1 (by omega)
    refine ⟨v2, ?_, by omega, p1.trans p2, ?_⟩
    · rw [heapify, e1]; exact e2
    · intro w hx
      refine s2 w (s1 w ?_ ?_)
      · intro p c hp hpk hc hch
        exact hx p c (by omega) (by simp) hc hch
      · intro p c hp hpk; omega

theorem heap_max {lt : α → α → Bool} (w : WeakOrder lt) {h : Nat → α} {hi : Nat}
    (hx : HeapX lt h 0 hi (fun _ => False)) : ∀ p, p < hi → lt (h 0) (h p) = false := by
  intro p
  induction p using Nat.strongRecOn with
  | _ p ih =>
    intro hp
    by_cases h0 : p = 0
    · subst h0; exact w.irrefl _
    · have h1 := ih ((p - 1) / 2) (by omega) (by omega)
      have h2 := hx ((p - 1) / 2) p (Nat.zero_le _) (by simp) (by omega) hp
      exact w.negTrans _ _ _ h1 h2

theorem heapPop_spec (lt : α → α → Bool) (first hi : Nat) : ∀ (k : Nat) (v : V α),
    k ≤ hi → first + hi ≤ v.n →
    ∃ v', heapPop lt first k v = some v' ∧ v'.n = v.n ∧ PermOn first (first + hi) v.f v'.f ∧
      (WeakOrder lt → HeapX lt (fun i => v.f (first + i)) 0 k (fun _ => False) →
        (∀ p q, p < q → q < hi → k ≤ q → lt (v.f (first + q)) (v.f (first + p)) = false) →
        ∀ p q, p < q → q < hi → lt (v'.f (first + q)) (v'.f (first + p)) = false) := by
  intro k
  induction k with
  | zero =>
    intro v _ h
    exact ⟨v, rfl, rfl, PermOn.refl _ _ _, fun _ _ h p q hpq hq => h p q hpq hq (Nat.zero_le _)⟩
  | succ k ih =>
    intro v hk h
    have e0 := swap_ok (v := v) (i := first) (j := first + k) (by omega) (by omega)
    obtain ⟨v1, e1, n1, p1, s1⟩ := siftDown_spec lt k first k 0
      { v with f := exch v.f first (first + k) } 0 (by omega) (by simp only; omega) (Nat.le_refl _)
    obtain ⟨v2, e2, n2, p2, s2⟩ := ih v1 (by omega) (by rw [n1]; exact h)
    refine ⟨v2, ?_, by rw [n2, n1], ?_, ?_⟩
    · rw [heapPop, e0]
      simp only [Option.bind_some]
      rw [e1]; exact e2
    · exact ((PermOn.exch v.f (by omega) (by omega) (by omega) (by omega)).trans
        (p1.mono (Nat.le_refl _) (by omega))).trans p2
    · intro w hx hs
      have hmax := heap_max w hx
      refine s2 w (s1 w ?_ ?_) ?_
      · intro p c hp hp0 hc hck
        have e1 := exch_o v.f (i := first) (j := first + k) (k := first + p) (by omega) (by omega)
        have e2 := exch_o v.f (i := first) (j := first + k) (k := first + c) (by omega) (by omega)
        simp only [e1, e2]
        exact hx p c hp (by simp) hc (by omega)
      · intro p c hp h0; omega
      · -- the suffix
        have base : ∀ p q, p < q → q < hi → k ≤ q →
            lt (exch v.f first (first + k) (first + q)) (exch v.f first (first + k) (first + p)) = false := by
          intro p q hpq hq hkq
          have src : ∃ m, exch v.f first (first + k) (first + p) = v.f (first + m) ∧
              (m < k + 1 ∨ (k < m ∧ m = p)) := by
            by_cases hp0 : p = 0
            · subst hp0; exact ⟨k, by rw [Nat.add_zero, exch_l], by omega⟩
            · by_cases hpk : p = k
              · subst hpk; exact ⟨0, by rw [exch_r]; rfl, by omega⟩
              · exact ⟨p, exch_o _ (by omega) (by omega), by omega⟩
          obtain ⟨m, em, hm⟩ := src
          rw [em]
          by_cases hqk : q = k
          · subst hqk
            rw [exch_r]
            exact hmax m (by omega)
          · rw [exch_o _ (by omega) (by omega)]
            exact hs m q (by omega) hq (by omega)
        intro p q hpq hq hkq
        have eq1 : v1.f (first + q) = exch v.f first (first + k) (first + q) := p1.out (.inr (by omega))
        rw [eq1]
        by_cases hpk : p < k
        · obtain ⟨m, m1, m2, em⟩ := p1.src (k := first + p) (by omega) (by omega)
          rw [em]
          have := base (m - first) q (by omega) hq hkq
          have hmm : first + (m - first) = m := by omega
          rw [hmm] at this
          exact this
        · have ep : v1.f (first + p) = exch v.f first (first + k) (first + p) := p1.out (.inr (by omega))
          rw [ep]
          exact base p q hpq hq hkq

theorem heapSort_spec (lt : α → α → Bool) (v : V α) (a b : Nat) (hab : a ≤ b) (hb : b ≤ v.n) :
    ∃ v', heapSort lt v a b = some v' ∧ v'.n = v.n ∧ PermOn a b v.f v'.f ∧
      (WeakOrder lt → SortedOn lt v'.f a b) := by
  have hx : a + (b - a) = b := by omega
  obtain ⟨v1, e1, n1, p1, s1⟩ := heapify_spec lt (b - a) a ((b - a - 1) / 2 + 1) v (by omega)
  obtain ⟨v2, e2, n2, p2, s2⟩ := heapPop_spec lt a (b - a) (b - a) v1 (Nat.le_refl _) (by omega)
  rw [hx] at p1 p2
  refine ⟨v2, ?_, by omega, p1.trans p2, ?_⟩
  · rw [heapSort, e1]; exact e2
  · intro w p q hp hpq hq
    have := s2 w (s1 w ?_) (by intro p q h1 h2 h3; omega) (p - a) (q - a) (by omega) (by omega)
    · have h1 : a + (p - a) = p := by omega
      have h2 : a + (q - a) = q := by omega
      rwa [h1, h2] at this
    · intro p c hp _ hc hch
      omega

/-! ### Partition -/

theorem scanUp_spec (lt : α → α → Bool) (v : V α) (a j : Nat) : ∀ (d i : Nat),
    j + 1 - i ≤ d → i ≤ j + 1 → j < v.n → a < v.n →
    ∃ i', scanUp lt v a i j = some i' ∧ i ≤ i' ∧ i' ≤ j + 1 ∧
      (∀ k, i ≤ k → k < i' → lt (v.f k) (v.f a) = true) ∧
      (i' ≤ j → lt (v.f i') (v.f a) = false) := by
  intro d
  induction d with
  | zero =>
    intro i h1 h2 h3 h4
    rw [scanUp, if_neg (by omega)]
    exact ⟨i, rfl, Nat.le_refl _, by omega, by intro k; omega, by omega⟩
  | succ d ih =>
    intro i h1 h2 h3 h4
    rw [scanUp]
    split
    · rw [less_ok (by omega) h4]
      simp only [Option.bind_some]
      split
      · rename_i hlt
        obtain ⟨i', e, a1, a2, a3, a4⟩ := ih (i + 1) (by omega) (by omega) h3 h4
        refine ⟨i', e, by omega, a2, ?_, a4⟩
        intro k hk hk'
        by_cases hki : k = i
        · subst hki; exact hlt
        · exact a3 k (by omega) hk'
      · rename_i hlt
        refine ⟨i, rfl, Nat.le_refl _, by omega, by intro k; omega, ?_⟩
        intro _; simpa using hlt
    · exact ⟨i, rfl, Nat.le_refl _, by omega, by intro k; omega, by omega⟩

theorem scanDown_spec (lt : α → α → Bool) (v : V α) (a i : Nat) (hi : 1 ≤ i) : ∀ (j : Nat),
    i ≤ j + 1 → j < v.n → a < v.n →
    ∃ j', scanDown lt v a i j = some j' ∧ j' ≤ j ∧ i ≤ j' + 1 ∧
      (∀ k, j' < k → k ≤ j → lt (v.f k) (v.f a) = false) ∧
      (i ≤ j' → lt (v.f j') (v.f a) = true) := by
  intro j
  induction j with
  | zero =>
    intro h1 h2 h3
    rw [scanDown, if_neg (by omega)]
    exact ⟨0, rfl, Nat.le_refl _, by omega, by intro k; omega, by omega⟩
  | succ j ih =>
    intro h1 h2 h3
    rw [scanDown]
    split
    · rw [less_ok h2 h3]
      simp only [Option.bind_some]
      split
      · rename_i hlt
        have hlt' : lt (v.f (j+1)) (v.f a) = false := by simpa using hlt
        obtain ⟨j', e, a1, a2, a3, a4⟩ := ih (by omega) (by omega) h3
        refine ⟨j', e, by omega, a2, ?_, a4⟩
        intro k hk hk'
        by_cases hkj : k = j + 1
        · subst hkj; exact hlt'
        · exact a3 k hk (by omega)
      · rename_i hlt
        refine ⟨j + 1, rfl, Nat.le_refl _, by omega, by intro k; omega, ?_⟩
        intro _; simpa using hlt
    · exact ⟨j + 1, rfl, Nat.le_refl _, by omega, by intro k; omega, by omega⟩

/-- The loop invariant of `partition` gives its result: everything before `j` is
less than the pivot and everything after it is not. -/
theorem partLoop_spec (lt : α → α → Bool) (a b : Nat) : ∀ (fuel : Nat) (v : V α) (i j : Nat),
    j + 1 < fuel + i → a + 1 ≤ i → i ≤ j + 1 → j < b → b ≤ v.n → 
    (∀ k, a < k → k < i → lt (v.f k) (v.f a) = true) →
    (∀ k, j < k → k < b → lt (v.f k) (v.f a) = false) →
    ∃ v' j', partLoop lt a fuel v i j = some (v', j') ∧ v'.n = v.n ∧ a ≤ j' ∧ j' < b ∧
      PermOn (a + 1) b v.f v'.f ∧
      (∀ k, a < k → k ≤ j' → lt (v'.f k) (v'.f a) = true) ∧
      (∀ k, j' < k → k < b → lt (v'.f k) (v'.f a) = false) := by
  intro fuel
  induction fuel with
  | zero => intro v i j h1 h2 h3 h4; omega
  | succ fuel ih =>
    intro v i j h1 h2 h3 h4 h5 hL hR
    obtain ⟨i', e1, a1, a2, a3, a4⟩ := scanUp_spec lt v a j (j + 1 - i) i (Nat.le_refl _) h3 (by omega) (by omega)
    obtain ⟨j', e2, b1, b2, b3, b4⟩ := scanDown_spec lt v a i' (by omega) j a2 (by omega) (by omega)
    rw [partLoop, e1]
    simp only [Option.bind_some]
    rw [e2]
    simp only [Option.bind_some]
    have hL' : ∀ k, a < k → k < i' → lt (v.f k) (v.f a) = true := by
      intro k hk hk'
      by_cases h : k < i
      · exact hL k hk h
      · exact a3 k (by omega) hk'
    have hR' : ∀ k, j' < k → k < b → lt (v.f k) (v.f a) = false := by
      intro k hk hk'
      by_cases h : j < k
      · exact hR k h hk'
      · exact b3 k hk (by omega)
    split
    · exact ⟨v, j', rfl, rfl, by omega, by omega, PermOn.refl _ _ _,
        fun k hk hk' => hL' k hk (by omega), hR'⟩
    · rename_i hij
      have f1 := a4 (by omega)
      have f2 := b4 (by omega)
      have hne : i' ≠ j' := by intro e; rw [e, f2] at f1; cases f1
      rw [swap_ok (by omega) (by omega)]
      simp only [Option.bind_some]
      have ea : exch v.f i' j' a = v.f a := exch_o _ (by omega) (by omega)
      obtain ⟨v', j2, e3, c1, c2, c3, c4, c5, c6⟩ := ih { v with f := exch v.f i' j' } (i' + 1) (j' - 1)
        (by omega) (by omega) (by omega) (by omega) h5
        (by
          intro k hk hk'
          simp only [ea]
          by_cases hki : k = i'
          · subst hki; rw [exch_l]; exact f2
          · rw [exch_o _ hki (by omega)]; exact hL' k hk (by omega))
        (by
          intro k hk hk'
          simp only [ea]
          by_cases hkj : k = j'
          · subst hkj; rw [exch_r]; exact f1
          · rw [exch_o _ (by omega) hkj]; exact hR' k (by omega) hk')
      exact ⟨v', j2, e3, c1, c2, c3,
        (PermOn.exch v.f (by omega) (by omega) (by omega) (by omega)).trans c4, c5, c6⟩

/-- The final exchange of `partition`. -/
theorem final_swap {lt : α → α → Bool} {f : Nat → α} {a j b : Nat} (haj : a ≤ j) 
    (hL : ∀ k, a < k → k ≤ j → lt (f k) (f a) = true)
    (hR : ∀ k, j < k → k < b → lt (f k) (f a) = false) :
    (∀ k, a ≤ k → k < j → lt (exch f a j k) (exch f a j j) = true) ∧
    (∀ k, j < k → k < b → lt (exch f a j k) (exch f a j j) = false) := by
  constructor
  · intro k h1 h2
    rw [exch_r]
    by_cases hk : k = a
    · subst hk; rw [exch_l]; exact hL j (by omega) (Nat.le_refl _)
    · rw [exch_o _ hk (by omega)]; exact hL k (by omega) (by omega)
  · intro k h1 h2
    rw [exch_r, exch_o _ (by omega) (by omega)]
    exact hR k h1 h2

theorem partition_spec (lt : α → α → Bool) (v : V α) (a b pivot : Nat) (h1 : a < b) (h2 : b ≤ v.n)
    (h3 : a ≤ pivot) (h4 : pivot < b) :
    ∃ v' mid ap, partition lt v a b pivot = some (v', mid, ap) ∧ v'.n = v.n ∧ a ≤ mid ∧ mid < b ∧
      PermOn a b v.f v'.f ∧
      (∀ k, a ≤ k → k < mid → lt (v'.f k) (v'.f mid) = true) ∧
      (∀ k, mid < k → k < b → lt (v'.f k) (v'.f mid) = false) := by
  have p0 : PermOn a b v.f (exch v.f a pivot) := PermOn.exch v.f (by omega) h1 h3 h4
  rw [partition, swap_ok (by omega) (by omega)]
  simp only [Option.bind_some]
  generalize exch v.f a pivot = f at p0
  obtain ⟨i, e1, a1, a2, a3, a4⟩ := scanUp_spec lt { v with f := f } a (b - 1) (b - 1) (a + 1)
    (by omega) (by omega) (by simp only; omega) (by simp only; omega)
  obtain ⟨j, e2, b1, b2, b3, b4⟩ := scanDown_spec lt { v with f := f } a i (by omega) (b - 1) a2
    (by simp only; omega) (by simp only; omega)
  rw [e1]
  simp only [Option.bind_some]
  rw [e2]
  simp only [Option.bind_some]
  simp only at a3 a4 b3 b4
  split
  · rw [swap_ok (by simp only; omega) (by simp only; omega)]
    simp only [Option.bind_some]
    obtain ⟨g1, g2⟩ := final_swap (lt := lt) (f := f) (a := a) (j := j) (b := b) (by omega)
      (fun k hk hk' => a3 k (by omega) (by omega)) (fun k hk hk' => b3 k hk (by omega))
    exact ⟨_, _, _, rfl, rfl, by omega, by omega,
      p0.trans (PermOn.exch f (by omega) (by omega) (by omega) (by omega)), g1, g2⟩
  · rename_i hij
    have f1 := a4 (by omega)
    have f2 := b4 (by omega)
    have hne : i ≠ j := by intro e; rw [e, f2] at f1; cases f1
    rw [swap_ok (by simp only; omega) (by simp only; omega)]
    simp only [Option.bind_some]
    have ea : exch f i j a = f a := exch_o _ (by omega) (by omega)
    obtain ⟨v', j2, e3, c1, c2, c3, c4, c5, c6⟩ := partLoop_spec lt a b (b - a)
      { v with f := exch f i j } (i + 1) (j - 1) (by omega) (by omega) (by omega) (by omega) h2
      (by
        intro k hk hk'
        simp only [ea]
        by_cases hki : k = i
        · subst hki; rw [exch_l]; exact f2
        · rw [exch_o _ hki (by omega)]; exact a3 k (by omega) (by omega))
      (by
        intro k hk hk'
        simp only [ea]
        by_cases hkj : k = j
        · subst hkj; rw [exch_r]; exact f1
        · rw [exch_o _ (by omega) hkj]; exact b3 k (by omega) (by omega))
    simp only at c1
    rw [e3]
    simp only [Option.bind_some]
    rw [swap_ok (by omega) (by omega)]
    simp only [Option.bind_some]
    obtain ⟨g1, g2⟩ := final_swap (lt := lt) (f := v'.f) (a := a) (j := j2) (b := b) c2 c5 c6
    refine ⟨_, _, _, rfl, c1, c2, c3, ?_, g1, g2⟩
    exact (p0.trans (PermOn.exch f (by omega) (by omega) (by omega) (by omega))).trans
      ((c4.mono (by omega) (Nat.le_refl _)).trans
        (PermOn.exch v'.f (by omega) (by omega) (by omega) (by omega)))

theorem breakPatterns_spec (v : V α) (a b : Nat) (h : b ≤ v.n) :
    ∃ v', breakPatterns v a b = some v' ∧ v'.n = v.n ∧ PermOn a b v.f v'.f := by
  unfold breakPatterns
  split
  · rw [swap_ok (by omega) (by omega)]
    simp only [Option.bind_some]
    rw [swap_ok (by simp only; omega) (by simp only; omega)]
    exact ⟨_, rfl, rfl, (PermOn.exch v.f (by omega) (by omega) (by omega) (by omega)).trans
      (PermOn.exch _ (by omega) (by omega) (by omega) (by omega))⟩
  · exact ⟨v, rfl, rfl, PermOn.refl _ _ _⟩

/-- Sorting the two sides of a partition sorts the whole. -/
theorem combine {lt : α → α → Bool} (w : WeakOrder lt) {f g h : Nat → α} {a mid b : Nat}
    (hL : ∀ k, a ≤ k → k < mid → lt (f k) (f mid) = true)
    (hR : ∀ k, mid < k → k < b → lt (f k) (f mid) = false)
    (p1 : PermOn a mid f g) (p2 : PermOn (mid + 1) b g h)
    (s1 : SortedOn lt g a mid) (s2 : SortedOn lt h (mid + 1) b) : SortedOn lt h a b := by
  have eL : ∀ k, k < mid + 1 → h k = g k := fun k hk => p2.out (.inl hk)
  have em : h mid = f mid := by rw [eL mid (by omega)]; exact p1.out (.inr (Nat.le_refl _))
  have hL' : ∀ k, a ≤ k → k < mid → lt (h k) (h mid) = true := by
    intro k h1 h2
    rw [em, eL k (by omega)]
    exact p1.all (P := fun x => lt x (f mid) = true) hL k h1 h2
  have hR' : ∀ k, mid < k → k < b → lt (h k) (h mid) = false := by
    intro k h1 h2
    rw [em]
    refine p2.all (P := fun x => lt x (f mid) = false) ?_ k (by omega) h2
    intro m m1 m2
    rw [p1.out (.inr (by omega))]
    exact hR m (by omega) m2
  intro p q hp hpq hq
  by_cases h1 : q < mid
  · rw [eL p (by omega), eL q (by omega)]; exact s1 p q hp hpq h1
  · by_cases h2 : mid < p
    · exact s2 p q (by omega) hpq hq
    · by_cases h3 : q = mid
      · subst h3; exact w.asymm (hL' p hp hpq)
      · by_cases h4 : p = mid
        · subst h4; exact hR' q (by omega) hq
        · rcases Bool.eq_false_or_eq_true (lt (h q) (h p)) with h5 | h5
          · have := w.trans _ _ _ h5 (hL' p hp (by omega))
            rw [hR' q (by omega) hq] at this; cases this
          · exact h5

/-- The same with the right side sorted first. -/
theorem combine' {lt : α → α → Bool} (w : WeakOrder lt) {f g h : Nat → α} {a mid b : Nat}
    (hL : ∀ k, a ≤ k → k < mid → lt (f k) (f mid) = true)
    (hR : ∀ k, mid < k → k < b → lt (f k) (f mid) = false)
    (p2 : PermOn (mid + 1) b f g) (p1 : PermOn a mid g h)
    (s2 : SortedOn lt g (mid + 1) b) (s1 : SortedOn lt h a mid) : SortedOn lt h a b := by
  have eR : ∀ k, mid ≤ k → h k = g k := fun k hk => p1.out (.inr hk)
  have em : h mid = f mid := by rw [eR mid (Nat.le_refl _)]; exact p2.out (.inl (by omega))
  have hL' : ∀ k, a ≤ k → k < mid → lt (h k) (h mid) = true := by
    intro k h1 h2
    rw [em]
    refine p1.all (P := fun x => lt x (f mid) = true) ?_ k h1 h2
    intro m m1 m2
    rw [p2.out (.inl (by omega))]
    exact hL m m1 m2
  have hR' : ∀ k, mid < k → k < b → lt (h k) (h mid) = false := by
    intro k h1 h2
    rw [em, eR k (by omega)]
    exact p2.all (P := fun x => lt x (f mid) = false) (fun m m1 m2 => hR m (by omega) m2) k (by omega) h2
  intro p q hp hpq hq
  by_cases h1 : q < mid
  · exact s1 p q hp hpq h1
  · by_cases h2 : mid < p
    · rw [eR p (by omega), eR q (by omega)]; exact s2 p q (by omega) hpq hq
    · by_cases h3 : q = mid
      · subst h3; exact w.asymm (hL' p hp hpq)
      · by_cases h4 : p = mid
        · subst h4; exact hR' q (by omega) hq
        · rcases Bool.eq_false_or_eq_true (lt (h q) (h p)) with h5 | h5
          · have := w.trans _ _ _ h5 (hL' p hp (by omega))
            rw [hR' q (by omega) hq] at this; cases this
          · exact h5

theorem pdqsort_spec (lt : α → α → Bool) : ∀ (fuel : Nat) (v : V α) (a b limit : Nat) (wb : Bool),
    b - a < fuel → a ≤ b → b ≤ v.n →
    ∃ v', pdqsort lt fuel v a b limit wb = some v' ∧ v'.n = v.n ∧ PermOn a b v.f v'.f ∧
      (WeakOrder lt → SortedOn lt v'.f a b) := by
  intro fuel
  induction fuel with
  | zero => intro v a b limit wb h; omega
  | succ fuel ih =>
    intro v a b limit wb h hab hb
    rw [pdqsort]
    split
    · exact insertionSort_spec lt v a b hb
    · split
      · exact heapSort_spec lt v a b hab hb
      · obtain ⟨v0, e0, n0, p0⟩ : ∃ v0, (if !wb then breakPatterns v a b else some v) = some v0 ∧
            v0.n = v.n ∧ PermOn a b v.f v0.f := by
          split
          · exact breakPatterns_spec v a b hb
          · exact ⟨v, rfl, rfl, PermOn.refl _ _ _⟩
        rw [e0]
        simp only [Option.bind_some]
        obtain ⟨v1, mid, ap, e1, n1, m1, m2, p1, hL, hR⟩ := partition_spec lt v0 a b (a + (b - a) / 2)
          (by omega) (by omega) (by omega) (by omega)
        rw [e1]
        simp only [Option.bind_some]
        split
        · obtain ⟨v2, e2, n2, p2, s2⟩ := ih v1 a mid (if !wb then limit - 1 else limit) true
            (by omega) m1 (by omega)
          rw [e2]
          simp only [Option.bind_some]
          split
          · refine ⟨v2, rfl, by omega, (p0.trans p1).trans (p2.mono (Nat.le_refl _) (by omega)), ?_⟩
            intro w
            refine combine w hL hR p2 (PermOn.refl _ _ _) (s2 w) ?_
            intro p q hp hpq hq; omega
          · obtain ⟨v3, e3, n3, p3, s3⟩ := ih v2 (mid + 1) b (if !wb then limit - 1 else limit)
              (decide (mid - a ≥ (b - a) / 8)) (by omega) (by omega) (by omega)
            rw [e3]
            refine ⟨v3, rfl, by omega, ?_, ?_⟩
            · exact ((p0.trans p1).trans (p2.mono (Nat.le_refl _) (by omega))).trans
                (p3.mono (by omega) (Nat.le_refl _))
            · intro w; exact combine w hL hR p2 p3 (s2 w) (s3 w)
        · obtain ⟨v2, e2, n2, p2, s2⟩ := ih v1 (mid + 1) b (if !wb then limit - 1 else limit) true
            (by omega) (by omega) (by omega)
          rw [e2]
          simp only [Option.bind_some]
          split
          · refine ⟨v2, rfl, by omega, (p0.trans p1).trans (p2.mono (by omega) (Nat.le_refl _)), ?_⟩
            intro w
            refine combine' w hL hR p2 (PermOn.refl _ _ _) (s2 w) ?_
            intro p q hp hpq hq; omega
          · obtain ⟨v3, e3, n3, p3, s3⟩ := ih v2 a mid (if !wb then limit - 1 else limit)
              (decide (b - mid - 1 ≥ (b - a) / 8)) (by omega) (by omega) (by omega)
            rw [e3]
            refine ⟨v3, rfl, by omega, ?_, ?_⟩
            · exact ((p0.trans p1).trans (p2.mono (by omega) (Nat.le_refl _))).trans
                (p3.mono (Nat.le_refl _) (by omega))
            · intro w; exact combine' w hL hR p2 p3 (s2 w) (s3 w)

end Nature.Sort
