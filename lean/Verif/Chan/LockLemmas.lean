import Verif.Chan.LockModel
namespace Nature.Chan
open Nature

/-- Entry `k`, 0 outside. -/
def g (l : List Nat) (k : Nat) : Nat := l.getD k 0

theorem rd_lt {l : List Nat} {k : Nat} (h : k < l.length) : rd l k = .ok (g l k) := by
  unfold rd g; rw [List.getElem?_eq_getElem h]; simp [List.getD, h]
theorem wr_lt {l : List Nat} {k : Nat} (x : Nat) (h : k < l.length) : wr l k x = .ok (l.set k x) := if_pos h
theorem g_set {l : List Nat} {j : Nat} (h : j < l.length) (x k : Nat) : g (l.set j x) k = if k = j then x else g l k := by
  unfold g
  rw [List.getD_eq_getElem?_getD, List.getD_eq_getElem?_getD, List.getElem?_set]
  by_cases hk : k = j
  · subst hk; simp [h]
  · rw [if_neg (fun h => hk h.symm), if_neg hk]
theorem g_get {l : List Nat} {k : Nat} (h : k < l.length) : l[k] = g l k := by
  unfold g; simp [List.getD, h]

/-- Moving the hole from `j` to `k`: same contents. -/
theorem hole_move {l : List Nat} {j k : Nat} (hj : j < l.length) (hk : k < l.length) (hne : j ≠ k) (o : Nat) :
    ((l.set j (g l k)).set k o).Perm (l.set j o) := by
  have := List.set_set_perm (as := l.set j o) (i := j) (j := k) (by simpa using hj) (by simpa using hk)
  simp only [List.getElem_set_self, List.set_set] at this
  rw [List.getElem_set_ne (by omega)] at this
  rwa [g_get hk] at this

theorem pollLoop_spec (rnd : Nat → Nat) (n f i : Nat) (p : List Nat) (hl : p.length = n) (hfi : f + i = n)
    (hp : (p.take i).Perm (List.range i)) : ∃ q, pollLoop rnd f i p = .ok q ∧ q.Perm (List.range n) ∧ q.length = n := by
  induction f generalizing i p with
  | zero =>
    refine ⟨p, rfl, ?_, hl⟩
    rw [List.take_of_length_le (by omega)] at hp
    rwa [show n = i by omega]
  | succ f ih =>
    unfold pollLoop
    have hj : rnd i % (i + 1) < i + 1 := Nat.mod_lt _ (by omega)
    generalize rnd i % (i + 1) = j at hj
    simp only
    rw [rd_lt (by omega), Res.bind_ok, wr_lt _ (by omega), Res.bind_ok, wr_lt _ (by simp; omega), Res.bind_ok]
    refine ih (i + 1) _ (by simpa using hl) (by omega) ?_
    rw [List.range_succ]
    have e1 : (p.set i (g p j)).set j i = ((p.set i i).set j (g (p.set i i) i)).set i (g (p.set i i) j) := by
      apply List.ext_getElem (by simp)
      intro k h1 h2
      simp only [g_get]
      simp only [List.length_set] at h1
      have q1 : i < p.length := by omega
      have q2 : j < p.length := by omega
      have b1 : j < (p.set i (g p j)).length := by simpa using q2
      have b2 : i < ((p.set i i).set j (g (p.set i i) i)).length := by simpa using q1
      have b3 : j < (p.set i i).length := by simpa using q2
      rw [g_set b1, g_set b2, g_set b3]
      simp only [g_set q1]
      by_cases a1 : k = j <;> by_cases a2 : k = i <;> by_cases a3 : j = i <;> simp_all
    rw [e1]
    have hlen : (p.set i i).length = n := by simpa using hl
    have h3 := List.set_set_perm (as := p.set i i) (i := j) (j := i) (by omega) (by omega)
    rw [g_get, g_get] at h3
    have h4 : (p.set i i).take (i + 1) = p.take i ++ [i] := by
      rw [List.take_add_one, List.getElem?_set_self (by omega), List.take_set_of_le (Nat.le_refl _)]; rfl
    have h5 : ∀ l l' : List Nat, l.Perm l' → l.drop (i + 1) = l'.drop (i + 1) → (l.take (i + 1)).Perm (l'.take (i + 1)) := by
      intro l l' h h'
      have := h
      rw [← List.take_append_drop (i + 1) l, ← List.take_append_drop (i + 1) l', h'] at this
      exact (List.perm_append_right_iff _).1 this
    refine (h5 _ _ h3 ?_).trans ?_
    · rw [List.drop_set_of_lt (by omega), List.drop_set_of_lt (by omega)]
    · rw [h4]; exact hp.append_right _

/-! ### Heap sort -/

/-- Max-heap order on the first `m` entries. -/
def Heap (a : Nat → Nat) (lo : List Nat) (m : Nat) : Prop := ∀ k, 0 < k → k < m → a (g lo k) ≤ a (g lo ((k - 1) / 2))

theorem heap_max {a : Nat → Nat} {lo : List Nat} {m : Nat} (h : Heap a lo m) (k : Nat) (hk : k < m) : a (g lo k) ≤ a (g lo 0) := by
  induction k using Nat.strongRecOn with
  | _ k ih =>
    by_cases h0 : k = 0
    · subst h0; exact Nat.le_refl _
    · exact Nat.le_trans (h k (by omega) hk) (ih ((k - 1) / 2) (by omega) (by omega))

theorem siftUp_spec (a : Nat → Nat) (o i n : Nat) (f j : Nat) (lo : List Nat) (hlen : lo.length = n) (hin : i < n) (hji : j ≤ i) (hf : j < f)
    (h1 : ∀ k, 0 < k → k ≤ i → k ≠ j → (k - 1) / 2 ≠ j → a (g lo k) ≤ a (g lo ((k - 1) / 2)))
    (h2 : ∀ k, 0 < k → k ≤ i → k ≠ j → (k - 1) / 2 = j → a (g lo k) ≤ a o ∧ (0 < j → a (g lo k) ≤ a (g lo ((j - 1) / 2)))) :
    ∃ lo' j', siftUp a (a o) f lo j = .ok (lo', j') ∧ lo'.length = n ∧ j' ≤ i ∧ (lo'.set j' o).Perm (lo.set j o) ∧ Heap a (lo'.set j' o) (i + 1) ∧
      (lo'.drop (i + 1) = lo.drop (i + 1)) := by
  induction f generalizing j lo with
  | zero => omega
  | succ f ih =>
    unfold siftUp
    by_cases hj0 : j = 0
    · rw [if_pos hj0]
      subst hj0
      refine ⟨lo, 0, rfl, hlen, hji, .refl _, ?_, rfl⟩
      intro k hk hk'
      rw [g_set (by omega), g_set (by omega), if_neg (by omega)]
      by_cases hp : (k - 1) / 2 = 0
      · rw [if_pos hp]; exact (h2 k hk (by omega) (by omega) hp).1
      · rw [if_neg hp]; exact h1 k hk (by omega) (by omega) hp
    · rw [if_neg hj0, rd_lt (by omega), Res.bind_ok]
      by_cases hlt : a (g lo ((j - 1) / 2)) < a o
      · rw [if_pos hlt, wr_lt _ (by omega), Res.bind_ok]
        generalize hp : (j - 1) / 2 = p at hlt
        have hpj : p < j := by omega
        obtain ⟨lo', j', e, c1, c2, c3, c4, c5⟩ := ih p (lo.set j (g lo p)) (by simpa using hlen) (by omega) (by omega) (by
          intro k hk hki hkp hkp'
          rw [g_set (by omega), g_set (by omega)]
          by_cases hkj : k = j
          · subst hkj; exact absurd hp hkp'
          · rw [if_neg hkj]
            by_cases hpar : (k - 1) / 2 = j
            · rw [if_pos hpar, ← hp]
              exact (h2 k hk hki hkj hpar).2 (by omega)
            · rw [if_neg hpar]
              exact h1 k hk hki hkj hpar) (by
          intro k hk hki hkp hkp'
          rw [g_set (by omega), g_set (by omega)]
          have hgp : 0 < p → (p - 1) / 2 ≠ j := by omega
          have hmono : 0 < p → a (g lo p) ≤ a (g lo ((p - 1) / 2)) := fun h0 => h1 p h0 (by omega) (by omega) (by omega)
          by_cases hkj : k = j
          · rw [if_pos hkj]
            refine ⟨by omega, fun h0 => ?_⟩
            rw [if_neg (hgp h0)]
            exact hmono h0
          · rw [if_neg hkj]
            have := h1 k hk hki hkj (by omega)
            rw [hkp'] at this
            refine ⟨by omega, fun h0 => ?_⟩
            rw [if_neg (hgp h0)]
            exact Nat.le_trans this (hmono h0))
        refine ⟨lo', j', e, c1, c2, c3.trans (hole_move (by omega) (by omega) (by omega) o), c4, ?_⟩
        rw [c5, List.drop_set_of_lt (by omega)]
      · rw [if_neg hlt]
        refine ⟨lo, j, rfl, hlen, hji, .refl _, ?_, rfl⟩
        intro k hk hk'
        rw [g_set (by omega), g_set (by omega)]
        by_cases hkj : k = j
        · subst hkj
          rw [if_pos rfl, if_neg (by omega)]
          omega
        · rw [if_neg hkj]
          by_cases hp : (k - 1) / 2 = j
          · rw [if_pos hp]; exact (h2 k hk (by omega) hkj hp).1
          · rw [if_neg hp]; exact h1 k hk (by omega) hkj hp

theorem take_perm_of_drop_eq {l l' : List Nat} {m : Nat} (h : l.Perm l') (h' : l.drop m = l'.drop m) : (l.take m).Perm (l'.take m) := by
  have := h
  rw [← List.take_append_drop m l, ← List.take_append_drop m l', h'] at this
  exact (List.perm_append_right_iff _).1 this

theorem buildLoop_spec (a : Nat → Nat) (poll : List Nat) (n f i : Nat) (lo : List Nat) (hp : poll.length = n) (hlen : lo.length = n) (hfi : f + i = n)
    (hperm : (lo.take i).Perm (poll.take i)) (hheap : Heap a lo i) :
    ∃ lo', buildLoop a poll f i lo = .ok lo' ∧ lo'.length = n ∧ lo'.Perm poll ∧ Heap a lo' n := by
  induction f generalizing i lo with
  | zero =>
    refine ⟨lo, rfl, hlen, ?_, by rwa [show n = i by omega]⟩
    rwa [List.take_of_length_le (by omega), List.take_of_length_le (by omega)] at hperm
  | succ f ih =>
    unfold buildLoop
    rw [rd_lt (by omega), Res.bind_ok]
    obtain ⟨lo', j', e, c1, c2, c3, c4, c5⟩ := siftUp_spec a (g poll i) i n (i + 1) i lo hlen (by omega) (Nat.le_refl _) (by omega)
      (fun k hk hki hne hpar => hheap k hk (by omega)) (fun k hk hki hne hpar => by omega)
    rw [e, Res.bind_ok]
    simp only
    rw [wr_lt _ (by omega), Res.bind_ok]
    refine ih (i + 1) _ (by simpa using c1) (by omega) ?_ c4
    have h1 := take_perm_of_drop_eq (m := i + 1) c3 (by
      rw [List.drop_set_of_lt (by omega), List.drop_set_of_lt (by omega), c5])
    refine h1.trans ?_
    rw [List.take_add_one, List.getElem?_set_self (by omega), List.take_set_of_le (Nat.le_refl _), List.take_add_one,
      List.getElem?_eq_getElem (by omega), g_get (by omega)]
    exact hperm.append_right _

theorem siftDown_spec (a : Nat → Nat) (o m n B : Nat) (f j : Nat) (lo : List Nat) (hlen : lo.length = n) (hmn : m < n) (hjm : j < m ∨ (j = 0 ∧ m = 0))
    (hf : m < f + j ∨ m = 0 ∧ 0 < f) (hB : a o ≤ B) (hB' : ∀ k, k < m → k ≠ j → a (g lo k) ≤ B)
    (h1 : ∀ k, 0 < k → k < m → k ≠ j → (k - 1) / 2 ≠ j → a (g lo k) ≤ a (g lo ((k - 1) / 2)))
    (h2 : 0 < j → a o ≤ a (g lo ((j - 1) / 2)) ∧ ∀ k, k < m → 0 < k → (k - 1) / 2 = j → a (g lo k) ≤ a (g lo ((j - 1) / 2))) :
    ∃ lo' j', siftDown a (a o) m f lo j = .ok (lo', j') ∧ lo'.length = n ∧ (j' < m ∨ (j' = 0 ∧ m = 0)) ∧ (lo'.set j' o).Perm (lo.set j o) ∧
      Heap a (lo'.set j' o) m ∧ (∀ k, k < m → a (g (lo'.set j' o) k) ≤ B) ∧ (∀ k, m ≤ k → g lo' k = g lo k) := by
  induction f generalizing j lo with
  | zero => omega
  | succ f ih =>
    have stop : ∀ (_ : ∀ k, 0 < k → k < m → (k - 1) / 2 = j → a (g lo k) ≤ a o),
        ∃ lo' j', (Res.ok (lo, j) : Res (List Nat × Nat)) = .ok (lo', j') ∧ lo'.length = n ∧ (j' < m ∨ (j' = 0 ∧ m = 0)) ∧
          (lo'.set j' o).Perm (lo.set j o) ∧
          Heap a (lo'.set j' o) m ∧ (∀ k, k < m → a (g (lo'.set j' o) k) ≤ B) ∧ (∀ k, m ≤ k → g lo' k = g lo k) := by
      intro hstop
      refine ⟨lo, j, rfl, hlen, hjm, .refl _, ?_, ?_, fun _ _ => rfl⟩
      · intro k hk hk'
        rw [g_set (by omega), g_set (by omega)]
        by_cases hkj : k = j
        · subst hkj
          rw [if_pos rfl, if_neg (by omega)]
          exact (h2 hk).1
        · rw [if_neg hkj]
          by_cases hp : (k - 1) / 2 = j
          · rw [if_pos hp]; exact hstop k hk hk' hp
          · rw [if_neg hp]; exact h1 k hk hk' hkj hp
      · intro k hk
        rw [g_set (by omega)]
        by_cases hkj : k = j
        · rw [if_pos hkj]; exact hB
        · rw [if_neg hkj]; exact hB' k hk hkj
    unfold siftDown
    simp only
    by_cases hk : j * 2 + 1 ≥ m
    · rw [if_pos hk]
      exact stop fun k h0 h3 h4 => by omega
    · rw [if_neg hk]
      -- the larger child
      have hch : ∃ k, (k = j * 2 + 1 ∨ k = j * 2 + 1 + 1) ∧ k < m ∧
          (if j * 2 + 1 + 1 < m then (rd lo (j * 2 + 1)).bind fun x => (rd lo (j * 2 + 1 + 1)).bind fun y =>
            .ok (if a x < a y then j * 2 + 1 + 1 else j * 2 + 1) else .ok (j * 2 + 1)) = Res.ok k ∧
          ∀ c, 0 < c → c < m → (c - 1) / 2 = j → a (g lo c) ≤ a (g lo k) := by
        by_cases h3 : j * 2 + 1 + 1 < m
        · rw [if_pos h3, rd_lt (by omega), Res.bind_ok, rd_lt (by omega), Res.bind_ok]
          by_cases h4 : a (g lo (j * 2 + 1)) < a (g lo (j * 2 + 1 + 1))
          · rw [if_pos h4]
            refine ⟨_, Or.inr rfl, h3, rfl, fun c h5 h6 h7 => ?_⟩
            rcases (by omega : c = j * 2 + 1 ∨ c = j * 2 + 1 + 1) with rfl | rfl <;> omega
          · rw [if_neg h4]
            refine ⟨_, Or.inl rfl, by omega, rfl, fun c h5 h6 h7 => ?_⟩
            rcases (by omega : c = j * 2 + 1 ∨ c = j * 2 + 1 + 1) with rfl | rfl <;> omega
        · rw [if_neg h3]
          refine ⟨_, Or.inl rfl, by omega, rfl, fun c h5 h6 h7 => ?_⟩
          rcases (by omega : c = j * 2 + 1) with rfl
          omega
      obtain ⟨k, hkc, hkm, e, hmax⟩ := hch
      rw [e, Res.bind_ok, rd_lt (by omega), Res.bind_ok]
      by_cases hlt : a o < a (g lo k)
      · rw [if_pos hlt, wr_lt _ (by omega), Res.bind_ok]
        obtain ⟨lo', j', e', c1, c2, c3, c4, c5, c6⟩ := ih k (lo.set j (g lo k)) (by simpa using hlen) (Or.inl hkm) (by omega) (by
            intro q hq hqk
            rw [g_set (by omega)]
            by_cases hqj : q = j
            · rw [if_pos hqj]; exact hB' k hkm (by omega)
            · rw [if_neg hqj]; exact hB' q hq hqj) (by
            intro q hq hqm hqk hpar
            rw [g_set (by omega), g_set (by omega)]
            by_cases hqj : q = j
            · subst hqj
              rw [if_pos rfl, if_neg (by omega)]
              exact (h2 hq).2 k hkm (by omega) (by omega)
            · rw [if_neg hqj]
              by_cases hpj : (q - 1) / 2 = j
              · rw [if_pos hpj]; exact hmax q hq hqm hpj
              · rw [if_neg hpj]; exact h1 q hq hqm hqj hpj) (by
            intro hk0
            have hpk : (k - 1) / 2 = j := by omega
            rw [g_set (by omega), if_pos hpk]
            refine ⟨by omega, fun q hq hq0 hpar => ?_⟩
            rw [g_set (by omega), if_neg (by omega)]
            have := h1 q hq0 hq (by omega) (by omega)
            rwa [hpar] at this)
        refine ⟨lo', j', e', c1, c2, c3.trans (hole_move (by omega) (by omega) (by omega) o), c4, c5, fun q hq => ?_⟩
        rw [c6 q hq, g_set (by omega), if_neg (by omega)]
      · rw [if_neg hlt]
        exact stop fun c h5 h6 h7 => by have := hmax c h5 h6 h7; omega

theorem extractLoop_spec (a : Nat → Nat) (n m : Nat) (lo : List Nat) (hlen : lo.length = n) (hmn : m ≤ n) (hheap : Heap a lo m)
    (hs : ∀ p q, m ≤ p → p < q → q < n → a (g lo p) ≤ a (g lo q)) (hb : ∀ p q, p < m → m ≤ q → q < n → a (g lo p) ≤ a (g lo q)) :
    ∃ lo', extractLoop a m lo = .ok lo' ∧ lo'.length = n ∧ lo'.Perm lo ∧ ∀ p q, p < q → q < n → a (g lo' p) ≤ a (g lo' q) := by
  induction m generalizing lo with
  | zero => exact ⟨lo, rfl, hlen, .refl _, fun p q h1 h2 => hs p q (Nat.zero_le _) h1 h2⟩
  | succ i ih =>
    unfold extractLoop
    rw [rd_lt (by omega), Res.bind_ok, rd_lt (by omega), Res.bind_ok, wr_lt _ (by omega), Res.bind_ok]
    have hB : ∀ k, k < i + 1 → a (g lo k) ≤ a (g lo 0) := heap_max hheap
    obtain ⟨lo', j', e, c1, c2, c3, c4, c5, c6⟩ := siftDown_spec a (g lo i) i n (a (g lo 0)) (i + 1) 0 (lo.set i (g lo 0)) (by simpa using hlen)
      (by omega) (by omega) (by omega) (hB i (by omega))
      (by
        intro k hk hk0
        rw [g_set (by omega), if_neg (by omega)]
        exact hB k (by omega))
      (by
        intro k hk hki hk0 hpar
        rw [g_set (by omega), g_set (by omega), if_neg (by omega), if_neg (by omega)]
        exact hheap k hk (by omega))
      (fun h => by omega)
    rw [e, Res.bind_ok]
    simp only
    rw [wr_lt _ (by omega), Res.bind_ok]
    have htail : ∀ q, i ≤ q → q < n → g (lo'.set j' (g lo i)) q = if q = i then g lo 0 else g lo q := by
      intro q h1 h2
      by_cases hi0 : i = 0
      · subst hi0
        have hj0 : j' = 0 := by omega
        subst hj0
        rw [g_set (by omega)]
        by_cases hq : q = 0
        · rw [if_pos hq, if_pos hq]
        · rw [if_neg hq, if_neg hq, c6 q (by omega), g_set (by omega), if_neg hq]
      · rw [g_set (by omega), if_neg (by omega), c6 q h1, g_set (by omega)]
    obtain ⟨lo'', e2, d1, d2, d3⟩ := ih (lo'.set j' (g lo i)) (by simpa using c1) (by omega) c4 (by
        intro p q h1 h2 h3
        rw [htail p h1 (by omega), htail q (by omega) h3, if_neg (show ¬ q = i by omega)]
        by_cases hp : p = i
        · rw [if_pos hp]; exact hb 0 q (by omega) (by omega) h3
        · rw [if_neg hp]; exact hs p q (by omega) h2 h3) (by
        intro p q h1 h2 h3
        rw [htail q h2 h3]
        have hp := c5 p h1
        by_cases hq : q = i
        · rw [if_pos hq]; exact hp
        · rw [if_neg hq]; exact Nat.le_trans hp (hb 0 q (by omega) (by omega) h3))
    refine ⟨lo'', e2, d1, d2.trans (c3.trans ?_), d3⟩
    by_cases hi0 : i = 0
    · subst hi0
      rw [List.set_set, ← g_get (by omega)]
      simp
    · have := hole_move (l := lo) (j := i) (k := 0) (by omega) (by omega) (by omega) (g lo i)
      refine this.trans ?_
      rw [← g_get (by omega)]
      simp

theorem lockOrder_spec (a rnd : Nat → Nat) (n : Nat) :
    ∃ lo, lockOrder a rnd n = .ok lo ∧ lo.Perm (List.range n) ∧ (lo.map a).Pairwise (· ≤ ·) := by
  unfold lockOrder pollOrder
  obtain ⟨p, e, h1, h2⟩ := pollLoop_spec rnd n n 0 (List.replicate n 0) (by simp) (by omega) (by simp)
  rw [e, Res.bind_ok]
  obtain ⟨lo, e2, h3, h4, h5⟩ := buildLoop_spec a p n n 0 (List.replicate n 0) h2 (by simp) (by omega) (by simp) (fun k h h' => by omega)
  rw [e2, Res.bind_ok]
  obtain ⟨lo', e3, h6, h7, h8⟩ := extractLoop_spec a n n lo h3 (Nat.le_refl _) h5 (fun p q h1 h2 h3 => by omega) (fun p q h1 h2 h3 => by omega)
  refine ⟨lo', e3, h7.trans (h4.trans h1), ?_⟩
  rw [List.pairwise_iff_getElem]
  intro i j hi hj hij
  simp only [List.length_map] at hi hj
  rw [List.getElem_map, List.getElem_map, g_get hi, g_get hj]
  exact h8 i j hij (by omega)

end Nature.Chan
