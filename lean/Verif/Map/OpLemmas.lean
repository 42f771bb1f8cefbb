import Verif.Map.Lemmas
/-! Growth, deletion, lookups. -/
namespace Nature.Map
open Nature

set_option linter.unusedSectionVars false
variable {K I V : Type} [DecidableEq I]

theorem inv_empty (o : KeyOps K I) (c : Nat) (h1 : 16 ≤ c) (h2 : c < 8589934592) (zk : K) (zv : V) :
    Inv o (⟨c, 0, List.replicate c 0#64, List.replicate c zk, List.replicate c zv⟩ : Map K V) 0 := by
  have hz : ∀ (h : Nat) w, (List.replicate c 0#64)[h]? = some w → live w = false := by
    intro h w hw
    rw [List.getElem?_replicate] at hw
    split at hw
    · cases hw; decide
    · cases hw
  refine ⟨h1, h2, by simp, by simp, by simp, by simp, ?_, ?_, by simp, by simp, ?_, ?_⟩
  · intro h w hw hl; rw [hz h w hw] at hl; cases hl
  · intro h h' w w' hw _ hl; rw [hz h w hw] at hl; cases hl
  · simp only; rw [List.countP_replicate, if_neg (by decide)]
    try exact Nat.le_refl _
  · simp only; rw [List.countP_replicate, if_neg (by decide)]
    try exact Nat.le_refl _

theorem rehashFrom_spec {o : KeyOps K I} {old : Map K V} {t : Nat} (h : Inv o old t) (n d : Nat) (m : Map K V)
    (hn : d + n = old.len) (hm : Inv o m 0) (hl : m.len = d) (hc : m.cap = old.cap * 2)
    (hk : ∀ i : Nat, i < d → m.keys[i]? = old.keys[i]?) (hv : ∀ i : Nat, i < d → m.vals[i]? = old.vals[i]?) :
    ∃ m', rehashFrom o old n d m = .ok m' ∧ Inv o m' 0 ∧ m'.len = old.len ∧ m'.cap = old.cap * 2 ∧
      (∀ i : Nat, i < old.len → m'.keys[i]? = old.keys[i]?) ∧ (∀ i : Nat, i < old.len → m'.vals[i]? = old.vals[i]?) := by
  induction n generalizing d m with
  | zero =>
    have : d = old.len := by omega
    subst this
    exact ⟨m, rfl, hm, hl, hc, hk, hv⟩
  | succ n ih =>
    have hd : d < old.len := by omega
    have hload := h.load
    obtain ⟨k, hkd⟩ : ∃ k, old.keys[d]? = some k := ⟨_, List.getElem?_eq_getElem (by rw [h.kl]; omega)⟩
    obtain ⟨v, hvd⟩ : ∃ v, old.vals[d]? = some v := ⟨_, List.getElem?_eq_getElem (by rw [h.vl]; omega)⟩
    obtain ⟨j, hj, hf, hw⟩ := find_hit h hd hkd rfl
    have hs := h.small (Nat.le_of_lt hd)
    have hg : ¬ needGrow m.len m.cap := by unfold needGrow; rw [hl, hc]; omega
    have ha : ∀ (i : Nat) k', i < m.len → m.keys[i]? = some k' → o.img k' ≠ o.img k := by
      intro i k' hi hki he
      rw [hk i (by omega)] at hki
      have := h.dist i d k' k (by omega) hd hki hkd he
      omega
    have hstep : ∃ m1, rehash o old m d = .ok m1 ∧ Inv o m1 0 ∧ m1.len = d + 1 ∧ m1.cap = old.cap * 2 ∧
        m1.keys = m.keys.set m.len k ∧ m1.vals = m.vals.set m.len v := by
      unfold rehash
      rw [cell_ok hkd, Res.bind_ok, hf, Res.bind_ok, word_ok hw, Res.bind_ok, mkWord_del hs]
      simp only [Bool.false_eq_true, if_false, hg]
      rw [cell_ok hvd, Res.bind_ok]
      rcases assignCore_miss hm v ha hg with ⟨tb, e, hi⟩ | ⟨_, _, hcc⟩
      · exact ⟨_, e, hi, by simp [hl], by simp [hc], rfl, rfl⟩
      · rw [hl, hc] at hcc; omega
    obtain ⟨m1, e1, i1, l1, c1, k1, v1⟩ := hstep
    have hkl := hm.kl
    have hvl := hm.vl
    obtain ⟨m', e', r⟩ := ih (d + 1) m1 (by omega) i1 l1 c1
      (by
        intro i hi
        rw [k1, hl]
        by_cases hid : i = d
        · subst hid; rw [List.getElem?_set_self (by omega), hkd]
        · rw [List.getElem?_set_ne (by omega)]; exact hk i (by omega))
      (by
        intro i hi
        rw [v1, hl]
        by_cases hid : i = d
        · subst hid; rw [List.getElem?_set_self (by omega), hvd]
        · rw [List.getElem?_set_ne (by omega)]; exact hv i (by omega))
    refine ⟨m', ?_, r⟩
    unfold rehashFrom
    rw [e1, Res.bind_ok]; exact e'

/-- Growth keeps every entry, doubles the capacity and removes all tombstones. -/
theorem grow_spec {o : KeyOps K I} {m : Map K V} {t : Nat} (h : Inv o m t) (hg : needGrow m.len m.cap) (hl : m.len < 2147483648)
    (zk : K) (zv : V) :
    ∃ m', grow o zk zv m = .ok m' ∧ Inv o m' 0 ∧ m'.len = m.len ∧ m'.cap = m.cap * 2 ∧
      (∀ i : Nat, i < m.len → m'.keys[i]? = m.keys[i]?) ∧ (∀ i : Nat, i < m.len → m'.vals[i]? = m.vals[i]?) := by
  unfold grow
  rw [if_neg (by omega)]
  have := h.cap16
  unfold needGrow at hg
  exact rehashFrom_spec h m.len 0 _ (by omega) (inv_empty o _ (by omega) (by omega) zk zv) rfl rfl (by omega) (by omega)

theorem lookup_slot {o : KeyOps K I} {m : Map K V} {t : Nat} (h : Inv o m t) (k : K) :
    (∃ (d : Nat) (k' : K) (x : Nat), d < m.len ∧ m.keys[d]? = some k' ∧ o.img k' = o.img k ∧ find o m.table m.cap m.keys k = .ok x ∧
      m.table[x]? = some (mkWord d)) ∨
    ((∀ (d : Nat) k', d < m.len → m.keys[d]? = some k' → o.img k' ≠ o.img k) ∧
      ((∃ x w, find o m.table m.cap m.keys k = .ok x ∧ m.table[x]? = some w ∧ live w = false) ∨
       (find o m.table m.cap m.keys k = .abort ∧ (∀ w ∈ m.table, isSet w = true) ∧ m.cap ≤ m.len + t))) := by
  rcases present_or_absent o m k with ⟨d, k', hd, hk, he⟩ | ha
  · obtain ⟨j, _, hf, hw⟩ := find_hit h hd hk he
    exact Or.inl ⟨d, k', _, hd, hk, he, hf, hw⟩
  · right
    refine ⟨ha, ?_⟩
    rcases find_miss h ha with ⟨j, w, _, hf, hw, hl, _⟩ | hr
    · exact Or.inl ⟨_, w, hf, hw, hl⟩
    · exact Or.inr hr

theorem not_live {w : Word} (h : live w = false) : isSet w = false ∨ isDeleted w = true := by
  unfold live at h
  cases h1 : isSet w
  · exact Or.inl rfl
  · right; rw [h1] at h; simpa using h

theorem access_spec {o : KeyOps K I} {m : Map K V} {t : Nat} (h : Inv o m t) (k : K) :
    (∃ (d : Nat) (k' : K) (v : V), d < m.len ∧ m.keys[d]? = some k' ∧ o.img k' = o.img k ∧ m.vals[d]? = some v ∧ access o m k = .ok v) ∨
    ((∀ (d : Nat) k', d < m.len → m.keys[d]? = some k' → o.img k' ≠ o.img k) ∧
      (access o m k = .throws ∨ (access o m k = .abort ∧ m.cap ≤ m.len + t))) := by
  have hc : m.cap ≠ 0 := by have := h.cap16; omega
  rcases lookup_slot h k with ⟨d, k', x, hd, hk, he, hf, hw⟩ | ⟨ha, ⟨x, w, hf, hw, hl⟩ | ⟨hf, _, hcc⟩⟩
  · left
    have hs := h.small (Nat.le_of_lt hd)
    have hvd : m.vals[d]? = some _ := List.getElem?_eq_getElem (by have := h.vl; have := h.load; omega)
    refine ⟨d, k', _, hd, hk, he, hvd, ?_⟩
    unfold access
    rw [if_neg hc, hf, Res.bind_ok, word_ok hw, Res.bind_ok, if_neg, mkWord_index hs, cell_ok hvd]
    rw [mkWord_set hs, mkWord_del hs]; simp
  · right
    refine ⟨ha, Or.inl ?_⟩
    unfold access
    rw [if_neg hc, hf, Res.bind_ok, word_ok hw, Res.bind_ok, if_pos (not_live hl)]
  · right
    refine ⟨ha, Or.inr ⟨?_, hcc⟩⟩
    unfold access
    rw [if_neg hc, hf]; rfl

theorem contains_spec {o : KeyOps K I} {m : Map K V} {t : Nat} (h : Inv o m t) (k : K) :
    (∃ (d : Nat) (k' : K), d < m.len ∧ m.keys[d]? = some k' ∧ o.img k' = o.img k ∧ contains o m k = .ok true) ∨
    ((∀ (d : Nat) k', d < m.len → m.keys[d]? = some k' → o.img k' ≠ o.img k) ∧
      (contains o m k = .ok false ∨ (contains o m k = .abort ∧ m.cap ≤ m.len + t))) := by
  have hc : m.cap ≠ 0 := by have := h.cap16; omega
  rcases lookup_slot h k with ⟨d, k', x, hd, hk, he, hf, hw⟩ | ⟨ha, ⟨x, w, hf, hw, hl⟩ | ⟨hf, _, hcc⟩⟩
  · left
    have hs := h.small (Nat.le_of_lt hd)
    refine ⟨d, k', hd, hk, he, ?_⟩
    unfold contains
    rw [if_neg hc, hf, Res.bind_ok, word_ok hw, Res.bind_ok, mkWord_set hs, mkWord_del hs]; simp
  · right
    refine ⟨ha, Or.inl ?_⟩
    unfold contains
    rw [if_neg hc, hf, Res.bind_ok, word_ok hw, Res.bind_ok]
    rcases not_live hl with h1 | h1
    · rw [if_pos h1]
    · rw [h1]; simp
  · right
    refine ⟨ha, Or.inr ⟨?_, hcc⟩⟩
    unfold contains
    rw [if_neg hc, hf]; rfl

/-- The table, keys and values after deleting entry `d` (slot `x`), the last entry (slot `r`) moved into the hole. -/
def removed (m : Map K V) (zk : K) (zv : V) (x r d : Nat) (lk : K) (lv : V) : Map K V :=
  { m with table := (m.table.set r (mkWord d)).set x tomb, keys := (m.keys.set d lk).set (m.len - 1) zk,
           vals := (m.vals.set d lv).set (m.len - 1) zv, len := m.len - 1 }

theorem Inv.remove {o : KeyOps K I} {m : Map K V} {t : Nat} (h : Inv o m t) (zk : K) (zv : V) {x r d : Nat} {lk : K} {lv : V}
    (hd : d < m.len) (hx : m.table[x]? = some (mkWord d)) (hr : m.table[r]? = some (mkWord (m.len - 1)))
    (hlk : m.keys[m.len - 1]? = some lk) : Inv o (removed m zk zv x r d lk lv) (t + 1) := by
  have hc : 0 < m.cap := by have := h.cap16; omega
  have hs := h.small (Nat.le_of_lt hd)
  have hsl := h.small (d := m.len - 1) (by omega)
  have hload := h.load
  have hxl := (List.getElem?_eq_some_iff.1 hx).1
  have hrl := (List.getElem?_eq_some_iff.1 hr).1
  have hxr : x = r ↔ d = m.len - 1 := by
    constructor
    · intro e
      rw [e, hr] at hx
      have := congrArg dataIndex (Option.some.inj hx)
      rw [mkWord_index hs, mkWord_index hsl] at this; omega
    · intro e
      exact h.inj x r _ _ hx hr (mkWord_live hs) (mkWord_live hsl) (by rw [mkWord_index hs, mkWord_index hsl]; exact e)
  have htab : ∀ (y : Nat) u, ((m.table.set r (mkWord d)).set x tomb)[y]? = some u →
      (y = x ∧ u = tomb) ∨ (y ≠ x ∧ y = r ∧ u = mkWord d) ∨ (y ≠ x ∧ y ≠ r ∧ m.table[y]? = some u) := by
    intro y u hu
    rcases getElem?_set' hu with ⟨e1, e2, _⟩ | ⟨e1, e2⟩
    · exact Or.inl ⟨e1, e2⟩
    · rcases getElem?_set' e2 with ⟨e3, e4, _⟩ | ⟨e3, e4⟩
      · exact Or.inr (Or.inl ⟨e1, e3, e4⟩)
      · exact Or.inr (Or.inr ⟨e1, e3, e4⟩)
  have htabset : ∀ (y : Nat) u, m.table[y]? = some u → isSet u = true →
      ∃ u', ((m.table.set r (mkWord d)).set x tomb)[y]? = some u' ∧ isSet u' = true := by
    intro y u hu hsu
    by_cases hyx : y = x
    · subst hyx
      exact ⟨tomb, List.getElem?_set_self (by simpa using hxl), tomb_set⟩
    · rw [List.getElem?_set_ne (by omega)]
      by_cases hyr : y = r
      · subst hyr
        exact ⟨mkWord d, List.getElem?_set_self hrl, mkWord_set hs⟩
      · rw [List.getElem?_set_ne (by omega)]
        exact ⟨u, hu, hsu⟩
  have hkeys : ∀ (i : Nat) k, i < m.len - 1 → ((m.keys.set d lk).set (m.len - 1) zk)[i]? = some k →
      (i = d ∧ k = lk) ∨ (i ≠ d ∧ m.keys[i]? = some k) := by
    intro i k hi hk
    rw [List.getElem?_set_ne (by omega)] at hk
    rcases getElem?_set' hk with ⟨e1, e2, _⟩ | ⟨e1, e2⟩
    · exact Or.inl ⟨e1, e2⟩
    · exact Or.inr ⟨e1, e2⟩
  refine ⟨h.cap16, h.capB, by simp [removed, h.tl], by simp [removed, h.kl], by simp [removed, h.vl], by simp only [removed]; omega, ?_, ?_, ?_, ?_, ?_, ?_⟩
  · intro y u hu hl
    simp only [removed] at hu ⊢
    rcases htab y u hu with ⟨_, e⟩ | ⟨e1, e2, e3⟩ | ⟨e1, e2, e3⟩
    · subst e; rw [tomb_not_live] at hl; cases hl
    · subst e3
      rw [mkWord_index hs]
      have : d ≠ m.len - 1 := by rw [Ne, ← hxr]; omega
      omega
    · have := h.lt y u e3 hl
      have : dataIndex u ≠ m.len - 1 := by
        intro e
        exact e2 (h.inj y r u _ e3 hr hl (mkWord_live hsl) (by rw [mkWord_index hsl]; exact e))
      omega
  · intro y y' u u' hu hu' hl hl' he
    simp only [removed] at hu hu'
    have key : ∀ (y : Nat) u, y ≠ x → m.table[y]? = some u → live u = true → dataIndex u ≠ d := by
      intro y u hy hu hl e
      exact hy (h.inj y x u _ hu hx hl (mkWord_live hs) (by rw [mkWord_index hs]; exact e))
    rcases htab y u hu with ⟨_, e⟩ | ⟨e1, e2, e3⟩ | ⟨e1, e2, e3⟩
    · subst e; rw [tomb_not_live] at hl; cases hl
    · rcases htab y' u' hu' with ⟨_, e⟩ | ⟨f1, f2, f3⟩ | ⟨f1, f2, f3⟩
      · subst e; rw [tomb_not_live] at hl'; cases hl'
      · omega
      · subst e3
        rw [mkWord_index hs] at he
        exact absurd he.symm (key y' u' f1 f3 hl')
    · rcases htab y' u' hu' with ⟨_, e⟩ | ⟨f1, f2, f3⟩ | ⟨f1, f2, f3⟩
      · subst e; rw [tomb_not_live] at hl'; cases hl'
      · subst f3
        rw [mkWord_index hs] at he
        exact absurd he (key y u e1 e3 hl)
      · exact h.inj y y' u u' e3 f3 hl hl' he
  · intro i k hi hk
    simp only [removed] at hi hk ⊢
    rcases hkeys i k hi hk with ⟨e1, e2⟩ | ⟨e1, e2⟩
    · subst e1 e2
      obtain ⟨j, hj, hw, hp⟩ := h.path (m.len - 1) k (by omega) hlk
      have hjr := h.inj _ r _ _ hw hr (mkWord_live hsl) (mkWord_live hsl) rfl
      refine ⟨j, hj, ?_, fun j' hj' => ?_⟩
      · rw [hjr]
        have hne : x ≠ r := by rw [Ne, hxr]; omega
        rw [List.getElem?_set_ne hne, List.getElem?_set_self hrl]
      · obtain ⟨w, hw', hs'⟩ := hp j' hj'
        exact htabset _ w hw' hs'
    · obtain ⟨j, hj, hw, hp⟩ := h.path i k (by omega) e2
      have hsi := h.small (d := i) (by omega)
      refine ⟨j, hj, ?_, fun j' hj' => ?_⟩
      · rw [List.getElem?_set_ne, List.getElem?_set_ne, hw]
        · intro e
          rw [← e, hr] at hw
          have := congrArg dataIndex (Option.some.inj hw)
          rw [mkWord_index hsi, mkWord_index hsl] at this; omega
        · intro e
          rw [← e, hx] at hw
          have := congrArg dataIndex (Option.some.inj hw)
          rw [mkWord_index hsi, mkWord_index hs] at this; omega
      · obtain ⟨w, hw', hs'⟩ := hp j' hj'
        exact htabset _ w hw' hs'
  · intro i i' k k' hi hi' hk hk' he
    simp only [removed] at hi hi' hk hk'
    rcases hkeys i k hi hk with ⟨e1, e2⟩ | ⟨e1, e2⟩
    · rcases hkeys i' k' hi' hk' with ⟨e3, e4⟩ | ⟨e3, e4⟩
      · omega
      · subst e2
        have := h.dist (m.len - 1) i' k k' (by omega) (by omega) hlk e4 he
        omega
    · rcases hkeys i' k' hi' hk' with ⟨e3, e4⟩ | ⟨e3, e4⟩
      · subst e4
        have := h.dist i (m.len - 1) k k' (by omega) (by omega) e2 hlk he
        omega
      · exact h.dist i i' k k' (by omega) (by omega) e2 e4 he
  all_goals
    have hx2 : (m.table.set r (mkWord d))[x]? = some (mkWord d) := by
      by_cases e : x = r
      · rw [e, List.getElem?_set_self hrl]
      · rw [List.getElem?_set_ne (by omega)]; exact hx
    simp only [removed]
  · have c1 := countP_set_eq live hr (mkWord d)
    have c2 := countP_set_eq live hx2 tomb
    rw [mkWord_live hs, mkWord_live hsl] at c1
    rw [mkWord_live hs, tomb_not_live] at c2
    have := h.cnt
    simp at c1 c2; omega
  · have c1 := countP_set_eq Map.dead hr (mkWord d)
    have c2 := countP_set_eq Map.dead hx2 tomb
    have hd1 : Map.dead (mkWord d) = false := by unfold Map.dead; rw [mkWord_del hs]; simp
    have hd2 : Map.dead (mkWord (m.len - 1)) = false := by unfold Map.dead; rw [mkWord_del hsl]; simp
    have hd3 : Map.dead tomb = true := by decide
    rw [hd1, hd2] at c1
    rw [hd1, hd3] at c2
    have := h.dead
    simp at c1 c2; omega

/-- Deletion: the entry of the key disappears, the last entry takes its place. -/
theorem delete_spec {o : KeyOps K I} {m : Map K V} {t : Nat} (h : Inv o m t) (zk : K) (zv : V) (k : K) :
    (∃ (d : Nat) (k' : K) (m' : Map K V), d < m.len ∧ m.keys[d]? = some k' ∧ o.img k' = o.img k ∧ delete o zk zv m k = .ok m' ∧ Inv o m' (t + 1) ∧
      m'.len = m.len - 1 ∧
      (∀ i : Nat, i < m.len - 1 → m'.keys[i]? = if i = d then m.keys[m.len - 1]? else m.keys[i]?) ∧
      (∀ i : Nat, i < m.len - 1 → m'.vals[i]? = if i = d then m.vals[m.len - 1]? else m.vals[i]?)) ∨
    ((∀ (d : Nat) k', d < m.len → m.keys[d]? = some k' → o.img k' ≠ o.img k) ∧
      (delete o zk zv m k = .ok m ∨ (delete o zk zv m k = .abort ∧ m.cap ≤ m.len + t))) := by
  have hc : m.cap ≠ 0 := by have := h.cap16; omega
  rcases lookup_slot h k with ⟨d, k', x, hd, hk, he, hf, hw⟩ | ⟨ha, ⟨x, w, hf, hw, hl⟩ | ⟨hf, _, hcc⟩⟩
  · left
    have hs := h.small (Nat.le_of_lt hd)
    have hload := h.load
    obtain ⟨lk, hlk⟩ : ∃ lk, m.keys[m.len - 1]? = some lk := ⟨_, List.getElem?_eq_getElem (by have := h.kl; omega)⟩
    obtain ⟨lv, hlv⟩ : ∃ lv, m.vals[m.len - 1]? = some lv := ⟨_, List.getElem?_eq_getElem (by have := h.vl; omega)⟩
    have hmove : ∃ r, m.table[r]? = some (mkWord (m.len - 1)) ∧
        (if d ≠ m.len - 1 then moveLast o m d (m.len - 1) else .ok m) =
          .ok { m with table := m.table.set r (mkWord d), keys := m.keys.set d lk, vals := m.vals.set d lv } := by
      by_cases hdl : d = m.len - 1
      · refine ⟨x, by rw [← hdl]; exact hw, ?_⟩
        rw [if_neg (by simp [hdl]), set_self hw, set_self (by rw [hdl]; exact hlk), set_self (by rw [hdl]; exact hlv)]
      · rw [if_pos hdl]
        obtain ⟨j, _, hfl, hwl⟩ := find_hit h (d := m.len - 1) (by omega) hlk rfl
        refine ⟨_, hwl, ?_⟩
        unfold moveLast
        rw [cell_ok hlk, Res.bind_ok, cell_ok hlv, Res.bind_ok, hfl, Res.bind_ok, word_ok hwl, Res.bind_ok]
    obtain ⟨r, hr, hmv⟩ := hmove
    refine ⟨d, k', removed m zk zv x r d lk lv, hd, hk, he, ?_, h.remove zk zv hd hw hr hlk, rfl, ?_, ?_⟩
    · unfold delete
      rw [if_neg hc, hf, Res.bind_ok, word_ok hw, Res.bind_ok, if_neg (by rw [mkWord_set hs, mkWord_del hs]; simp), mkWord_index hs, hmv, Res.bind_ok]
      rfl
    · intro i hi
      show ((m.keys.set d lk).set (m.len - 1) zk)[i]? = _
      rw [List.getElem?_set_ne (by omega)]
      by_cases hid : i = d
      · subst hid; rw [if_pos rfl, List.getElem?_set_self (by have := h.kl; omega), hlk]
      · rw [if_neg hid, List.getElem?_set_ne (by omega)]
    · intro i hi
      show ((m.vals.set d lv).set (m.len - 1) zv)[i]? = _
      rw [List.getElem?_set_ne (by omega)]
      by_cases hid : i = d
      · subst hid; rw [if_pos rfl, List.getElem?_set_self (by have := h.vl; omega), hlv]
      · rw [if_neg hid, List.getElem?_set_ne (by omega)]
  · right
    refine ⟨ha, Or.inl ?_⟩
    unfold delete
    rw [if_neg hc, hf, Res.bind_ok, word_ok hw, Res.bind_ok, if_pos (not_live hl)]
  · right
    refine ⟨ha, Or.inr ⟨?_, hcc⟩⟩
    unfold delete
    rw [if_neg hc, hf]; rfl

/-- Assignment (growth included) on an initialised map. -/
theorem assign_spec {o : KeyOps K I} {m : Map K V} {t : Nat} (h : Inv o m t) (zk : K) (zv : V) (k : K) (v : V) (hl : m.len < 2147483648) :
    (∃ (d : Nat) (k' : K) (m' : Map K V), d < m.len ∧ m.keys[d]? = some k' ∧ o.img k' = o.img k ∧ assign o zk zv m k v = .ok m' ∧ Inv o m' t ∧
      m'.len = m.len ∧ (∀ i : Nat, i < m.len → m'.keys[i]? = if i = d then some k else m.keys[i]?) ∧
      (∀ i : Nat, i < m.len → m'.vals[i]? = if i = d then some v else m.vals[i]?)) ∨
    ((∀ (d : Nat) k', d < m.len → m.keys[d]? = some k' → o.img k' ≠ o.img k) ∧
      ((∃ m', assign o zk zv m k v = .ok m' ∧ Inv o m' t ∧ m'.len = m.len + 1 ∧
        (∀ i : Nat, i < m.len + 1 → m'.keys[i]? = if i = m.len then some k else m.keys[i]?) ∧
        (∀ i : Nat, i < m.len + 1 → m'.vals[i]? = if i = m.len then some v else m.vals[i]?)) ∨
       (assign o zk zv m k v = .abort ∧ m.cap ≤ m.len + t))) := by
  have hc : m.cap ≠ 0 := by have := h.cap16; omega
  -- the map after the growth test
  have hg : ∃ m1, (if needGrow m.len m.cap then grow o zk zv m else .ok m) = .ok m1 ∧ Inv o m1 t ∧ m1.len = m.len ∧
      ¬ needGrow m1.len m1.cap ∧ (m1.cap ≤ m1.len + t → m.cap ≤ m.len + t) ∧
      (∀ i : Nat, i < m.len → m1.keys[i]? = m.keys[i]?) ∧ (∀ i : Nat, i < m.len → m1.vals[i]? = m.vals[i]?) := by
    by_cases hn : needGrow m.len m.cap
    · rw [if_pos hn]
      obtain ⟨m', e, hi, e1, e2, e3, e4⟩ := grow_spec h hn hl zk zv
      refine ⟨m', e, ⟨hi.cap16, hi.capB, hi.tl, hi.kl, hi.vl, hi.load, hi.lt, hi.inj, hi.path, hi.dist, hi.cnt, ?_⟩, e1, ?_, ?_, e3, e4⟩
      · have := hi.dead; omega
      · unfold needGrow; rw [e1, e2]
        have := h.load; have := h.cap16; omega
      · rw [e1, e2]; intro hh; omega
    · rw [if_neg hn]
      exact ⟨m, rfl, h, rfl, hn, id, fun _ _ => rfl, fun _ _ => rfl⟩
  obtain ⟨m1, e1, hi, l1, g1, c1, k1, v1⟩ := hg
  have hunf : assign o zk zv m k v = (assignCore o m1 k).bind (storeVal · v) := by
    unfold assign
    simp only [if_neg hc]
    rw [e1, Res.bind_ok]
  rw [hunf]
  have hkl := hi.kl
  have hvl := hi.vl
  unfold needGrow at g1
  rcases present_or_absent o m1 k with ⟨d, k', hd, hk, he⟩ | ha
  · left
    refine ⟨d, k', _, by omega, by rw [← k1 d (by omega)]; exact hk, he, assignCore_hit hi v hd hk he, hi.rekey v hd hk he, l1, ?_, ?_⟩
    · intro i hii
      show (m1.keys.set d k)[i]? = _
      by_cases hid : i = d
      · subst hid; rw [if_pos rfl, List.getElem?_set_self (by omega)]
      · rw [if_neg hid, List.getElem?_set_ne (by omega)]; exact k1 i hii
    · intro i hii
      show (m1.vals.set d v)[i]? = _
      by_cases hid : i = d
      · subst hid; rw [if_pos rfl, List.getElem?_set_self (by omega)]
      · rw [if_neg hid, List.getElem?_set_ne (by omega)]; exact v1 i hii
  · right
    refine ⟨fun d k' hd hk => ha d k' (by omega) (by rw [k1 d hd]; exact hk), ?_⟩
    rcases assignCore_miss hi v ha g1 with ⟨tb, e, hi'⟩ | ⟨e, _, hcc⟩
    · left
      refine ⟨_, e, hi', by simp [l1], ?_, ?_⟩
      · intro i hii
        show (m1.keys.set m1.len k)[i]? = _
        rw [l1]
        by_cases hid : i = m.len
        · subst hid; rw [if_pos rfl, List.getElem?_set_self (by omega)]
        · rw [if_neg hid, List.getElem?_set_ne (by omega)]; exact k1 i (by omega)
      · intro i hii
        show (m1.vals.set m1.len v)[i]? = _
        rw [l1]
        by_cases hid : i = m.len
        · subst hid; rw [if_pos rfl, List.getElem?_set_self (by omega)]
        · rw [if_neg hid, List.getElem?_set_ne (by omega)]; exact v1 i (by omega)
    · exact Or.inr ⟨e, c1 hcc⟩

end Nature.Map
