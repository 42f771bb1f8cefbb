import Verif.Map.Spec
/-! Words, probing, and the table invariant. -/
namespace Nature.Map
open Nature

theorem isSet_eq (w : Word) : isSet w = w.toNat.testBit 63 := by
  unfold isSet
  have := BitVec.and_twoPow w 63
  rw [BitVec.twoPow_eq] at this
  rw [this]
  have hg : w.getLsbD 63 = w.toNat.testBit 63 := rfl
  rw [hg]
  cases w.toNat.testBit 63 <;> simp

theorem isDeleted_eq (w : Word) : isDeleted w = w.toNat.testBit 62 := by
  unfold isDeleted
  have := BitVec.and_twoPow w 62
  rw [BitVec.twoPow_eq] at this
  rw [this]
  have hg : w.getLsbD 62 = w.toNat.testBit 62 := rfl
  rw [hg]
  cases w.toNat.testBit 62 <;> simp

theorem dataIndex_eq (w : Word) : dataIndex w = w.toNat % 4611686018427387904 := by
  unfold dataIndex
  rw [BitVec.toNat_ushiftRight, BitVec.toNat_shiftLeft, Nat.shiftLeft_eq, Nat.shiftRight_eq_div_pow]
  have := w.isLt
  omega

theorem mkWord_toNat {d : Nat} (h : d < 4611686018427387904) : (mkWord d).toNat = 9223372036854775808 + d := by
  unfold mkWord
  rw [BitVec.toNat_or, BitVec.toNat_ofNat, Nat.mod_eq_of_lt (by omega)]
  have h1 : (1#64 <<< 63).toNat = 2 ^ 63 := by decide
  rw [h1, Nat.or_comm, ← Nat.two_pow_add_eq_or_of_lt (i := 63) (by omega) 1]

theorem testBit63 (n : Nat) : n.testBit 63 = decide (n / 9223372036854775808 % 2 = 1) := by
  rw [Nat.testBit_eq_decide_div_mod_eq]
theorem testBit62 (n : Nat) : n.testBit 62 = decide (n / 4611686018427387904 % 2 = 1) := by
  rw [Nat.testBit_eq_decide_div_mod_eq]

theorem mkWord_set {d : Nat} (h : d < 4611686018427387904) : isSet (mkWord d) = true := by
  rw [isSet_eq, mkWord_toNat h, testBit63, decide_eq_true_eq]; omega
theorem mkWord_del {d : Nat} (h : d < 4611686018427387904) : isDeleted (mkWord d) = false := by
  rw [isDeleted_eq, mkWord_toNat h, testBit62, decide_eq_false_iff_not]; omega
theorem mkWord_index {d : Nat} (h : d < 4611686018427387904) : dataIndex (mkWord d) = d := by
  rw [dataIndex_eq, mkWord_toNat h]; omega

/-- A word holding an entry. -/
def live (w : Word) : Bool := isSet w && !isDeleted w
/-- A tombstone. -/
def dead (w : Word) : Bool := isSet w && isDeleted w

theorem live_iff {w : Word} : live w = true ↔ isSet w = true ∧ isDeleted w = false := by
  unfold live; simp

theorem mkWord_live {d : Nat} (h : d < 4611686018427387904) : live (mkWord d) = true :=
  live_iff.2 ⟨mkWord_set h, mkWord_del h⟩

theorem tomb_set : isSet tomb = true := by decide
theorem tomb_not_live : live tomb = false := by decide

theorem dataIndex_lt (w : Word) : dataIndex w < 4611686018427387904 := by
  rw [dataIndex_eq]; omega

/-- A live word is determined by its data index. -/
theorem live_eq {w : Word} (h : live w = true) : mkWord (dataIndex w) = w := by
  obtain ⟨h1, h2⟩ := live_iff.1 h
  rw [isSet_eq, testBit63, decide_eq_true_eq] at h1
  rw [isDeleted_eq, testBit62, decide_eq_false_iff_not] at h2
  apply BitVec.eq_of_toNat_eq
  rw [mkWord_toNat (dataIndex_lt w), dataIndex_eq]
  have := w.isLt
  omega

/-! ### Probe positions -/

/-- Slot number `j` of the probe sequence from hash `h`. -/
def pos (c h j : Nat) : Nat := if h % c + j < c then h % c + j else h % c + j - c

theorem pos_zero {c : Nat} (hc : 0 < c) (h : Nat) : pos c h 0 = h % c := by
  unfold pos
  rw [Nat.add_zero, if_pos (Nat.mod_lt _ hc)]

theorem pos_lt {c : Nat} (hc : 0 < c) (h : Nat) {j : Nat} (hj : j < c) : pos c h j < c := by
  unfold pos
  have := Nat.mod_lt h hc
  split <;> omega

theorem pos_succ {c : Nat} (hc : 0 < c) (h : Nat) {j : Nat} (hj : j + 1 < c) : (pos c h j + 1) % c = pos c h (j + 1) := by
  have := Nat.mod_lt h hc
  unfold pos
  by_cases h1 : h % c + j < c
  · rw [if_pos h1]
    by_cases h2 : h % c + (j + 1) < c
    · rw [if_pos h2, Nat.mod_eq_of_lt (by omega)]; omega
    · rw [if_neg h2, show h % c + j + 1 = c by omega, Nat.mod_self]; omega
  · rw [if_neg h1, if_neg (by omega), Nat.mod_eq_of_lt (by omega)]; omega

theorem pos_inj {c h i j : Nat} (hc : 0 < c) (hi : i < c) (hj : j < c) (e : pos c h i = pos c h j) : i = j := by
  have := Nat.mod_lt h hc
  unfold pos at e
  split at e <;> split at e <;> omega

theorem pos_surj {c : Nat} (hc : 0 < c) (h : Nat) {x : Nat} (hx : x < c) : ∃ j, j < c ∧ pos c h j = x := by
  have := Nat.mod_lt h hc
  by_cases h1 : h % c ≤ x
  · refine ⟨x - h % c, by omega, ?_⟩
    unfold pos; rw [if_pos (by omega)]; omega
  · refine ⟨x + c - h % c, by omega, ?_⟩
    unfold pos; rw [if_neg (by omega)]; omega

set_option linter.unusedSectionVars false
variable {K I V : Type} [DecidableEq I]

theorem findLoop_hit (o : KeyOps K I) (table : List Word) (cap : Nat) (keys : List K) (k : K) (hh : Nat) (hc : 0 < cap) (j0 : Nat) (hj0 : j0 < cap)
    (w0 : Word) (k0 : K) (h0 : table[pos cap hh j0]? = some w0) (hl : live w0 = true) (hk0 : keys[dataIndex w0]? = some k0)
    (he : o.img k0 = o.img k) (fuel i : Nat) (fd : Option Nat) (hif : i + fuel = cap) (hij : i ≤ j0)
    (hb : ∀ j, i ≤ j → j < j0 → ∃ w, table[pos cap hh j]? = some w ∧ isSet w = true ∧
      (isDeleted w = true ∨ ∃ k', keys[dataIndex w]? = some k' ∧ o.img k' ≠ o.img k)) :
    findLoop o table cap keys k fuel (pos cap hh i) fd = .ok (pos cap hh j0) := by
  induction fuel generalizing i fd with
  | zero => omega
  | succ fuel ih =>
    unfold findLoop
    by_cases hi : i = j0
    · subst hi
      obtain ⟨l1, l2⟩ := live_iff.1 hl
      simp [h0, l1, l2, hk0, he]
    · obtain ⟨w, hw, hs, hd⟩ := hb i (Nat.le_refl _) (by omega)
      have hn : (pos cap hh i + 1) % cap = pos cap hh (i + 1) := pos_succ hc hh (by omega)
      rw [hw]
      simp only [hs, Bool.true_eq_false, if_false]
      by_cases hdel : isDeleted w = true
      · rw [if_pos hdel, hn]
        exact ih (i + 1) _ (by omega) (by omega) (fun j h1 h2 => hb j (by omega) h2)
      · rw [if_neg hdel]
        rcases hd with hd | ⟨k', hk', hne⟩
        · exact absurd hd hdel
        · simp only [hk', hne, if_false]
          rw [hn]
          exact ih (i + 1) _ (by omega) (by omega) (fun j h1 h2 => hb j (by omega) h2)

theorem findLoop_miss (o : KeyOps K I) (table : List Word) (cap : Nat) (keys : List K) (k : K) (hh : Nat) (hc : 0 < cap)
    (htl : table.length = cap)
    (hm : ∀ (h : Nat) w, table[h]? = some w → live w = true → ∃ k', keys[dataIndex w]? = some k' ∧ o.img k' ≠ o.img k)
    (fuel i : Nat) (fd : Option Nat) (hif : i + fuel = cap) :
    (∃ r, findLoop o table cap keys k fuel (pos cap hh i) fd = .ok r ∧
      (∀ x, fd = some x → r = x) ∧
      (fd = none → ∃ j2, i ≤ j2 ∧ j2 < cap ∧ r = pos cap hh j2 ∧ (∃ w, table[r]? = some w ∧ live w = false) ∧
        ∀ j, i ≤ j → j < j2 → ∃ w, table[pos cap hh j]? = some w ∧ isSet w = true)) ∨
    (findLoop o table cap keys k fuel (pos cap hh i) fd = .abort ∧
      ∀ j, i ≤ j → j < cap → ∃ w, table[pos cap hh j]? = some w ∧ isSet w = true) := by
  induction fuel generalizing i fd with
  | zero =>
    right
    exact ⟨rfl, fun j h1 h2 => by omega⟩
  | succ fuel ih =>
    have hi : i < cap := by omega
    obtain ⟨w, hw⟩ : ∃ w, table[pos cap hh i]? = some w :=
      ⟨_, List.getElem?_eq_getElem (by rw [htl]; exact pos_lt hc hh hi)⟩
    have hn : i + 1 < cap → (pos cap hh i + 1) % cap = pos cap hh (i + 1) := pos_succ hc hh
    -- the last round does not depend on the next index
    have hnext : ∀ fd', findLoop o table cap keys k fuel ((pos cap hh i + 1) % cap) fd' =
        findLoop o table cap keys k fuel (pos cap hh (i + 1)) fd' := by
      intro fd'
      by_cases hl : i + 1 < cap
      · rw [hn hl]
      · have : fuel = 0 := by omega
        subst this; rfl
    unfold findLoop
    rw [hw]
    by_cases hs : isSet w = false
    · left
      simp only [hs, if_true]
      refine ⟨_, rfl, ?_, ?_⟩
      · intro x hx; rw [hx]; rfl
      · intro hx
        rw [hx]
        exact ⟨i, Nat.le_refl _, hi, rfl, ⟨w, hw, by unfold live; rw [hs]; rfl⟩, fun j h1 h2 => by omega⟩
    · simp only [hs, if_false]
      simp only [Bool.not_eq_false] at hs
      by_cases hdel : isDeleted w = true
      · rw [if_pos hdel, hnext]
        rcases ih (i + 1) (match fd with | some x => some x | none => some (pos cap hh i)) (by omega) with ⟨r, e, h1, _⟩ | ⟨e, h1⟩
        · left
          refine ⟨r, e, ?_, ?_⟩
          · intro x hx; subst hx; exact h1 x rfl
          · intro hx
            subst hx
            have hr := h1 _ rfl
            subst hr
            exact ⟨i, Nat.le_refl _, hi, rfl, ⟨w, hw, by unfold live; rw [hdel]; simp⟩, fun j h1 h2 => by omega⟩
        · right
          refine ⟨e, fun j h2 h3 => ?_⟩
          by_cases hj : j = i
          · subst hj; exact ⟨w, hw, hs⟩
          · exact h1 j (by omega) h3
      · rw [if_neg hdel]
        obtain ⟨k', hk', hne⟩ := hm _ w hw (live_iff.2 ⟨hs, by simpa using hdel⟩)
        simp only [hk', hne, if_false]
        rw [hnext]
        rcases ih (i + 1) fd (by omega) with ⟨r, e, h1, h2⟩ | ⟨e, h1⟩
        · left
          refine ⟨r, e, h1, ?_⟩
          intro hx
          obtain ⟨j2, a1, a2, a3, a4, a5⟩ := h2 hx
          refine ⟨j2, by omega, a2, a3, a4, fun j b1 b2 => ?_⟩
          by_cases hj : j = i
          · subst hj; exact ⟨w, hw, hs⟩
          · exact a5 j (by omega) b2
        · right
          refine ⟨e, fun j h2 h3 => ?_⟩
          by_cases hj : j = i
          · subst hj; exact ⟨w, hw, hs⟩
          · exact h1 j (by omega) h3

/-- The invariant of a used map with at most `t` tombstones. -/
structure Inv (o : KeyOps K I) (m : Map K V) (t : Nat) : Prop where
  cap16 : 16 ≤ m.cap
  capB : m.cap < 8589934592
  tl : m.table.length = m.cap
  kl : m.keys.length = m.cap
  vl : m.vals.length = m.cap
  load : 4 * m.len ≤ 3 * m.cap
  lt : ∀ (h : Nat) w, m.table[h]? = some w → live w = true → dataIndex w < m.len
  inj : ∀ (h h' : Nat) w w', m.table[h]? = some w → m.table[h']? = some w' → live w = true → live w' = true →
    dataIndex w = dataIndex w' → h = h'
  path : ∀ (d : Nat) k, d < m.len → m.keys[d]? = some k → ∃ j, j < m.cap ∧ m.table[pos m.cap (o.hash (o.img k)) j]? = some (mkWord d) ∧
    ∀ j', j' < j → ∃ w, m.table[pos m.cap (o.hash (o.img k)) j']? = some w ∧ isSet w = true
  dist : ∀ (d d' : Nat) k k', d < m.len → d' < m.len → m.keys[d]? = some k → m.keys[d']? = some k' → o.img k = o.img k' → d = d'
  cnt : m.table.countP live = m.len
  dead : m.table.countP dead ≤ t

theorem Inv.small {o : KeyOps K I} {m : Map K V} {t d : Nat} (h : Inv o m t) (hd : d ≤ m.len) : d < 4611686018427387904 := by
  have := h.load; have := h.capB; omega

/-- A present key is found at its slot. -/
theorem find_hit {o : KeyOps K I} {m : Map K V} {t : Nat} (h : Inv o m t) {d : Nat} {k k' : K} (hd : d < m.len)
    (hk : m.keys[d]? = some k') (he : o.img k' = o.img k) :
    ∃ j, j < m.cap ∧ find o m.table m.cap m.keys k = .ok (pos m.cap (o.hash (o.img k)) j) ∧
      m.table[pos m.cap (o.hash (o.img k)) j]? = some (mkWord d) := by
  have hc : 0 < m.cap := by have := h.cap16; omega
  obtain ⟨j, hj, hw, hp⟩ := h.path d k' hd hk
  rw [he] at hw hp
  have hs := h.small (Nat.le_of_lt hd)
  refine ⟨j, hj, ?_, hw⟩
  unfold find
  rw [← pos_zero hc]
  refine findLoop_hit o m.table m.cap m.keys k _ hc j hj (mkWord d) k' hw (mkWord_live hs) (by rw [mkWord_index hs]; exact hk) he
    m.cap 0 none (by omega) (Nat.zero_le _) ?_
  intro j' _ hj'
  obtain ⟨w, hw', hset⟩ := hp j' hj'
  refine ⟨w, hw', hset, ?_⟩
  by_cases hdel : isDeleted w = true
  · exact Or.inl hdel
  · right
    have hl : live w = true := live_iff.2 ⟨hset, by simpa using hdel⟩
    have hlt := h.lt _ w hw' hl
    have hkl : dataIndex w < m.keys.length := by have := h.kl; have := h.load; omega
    refine ⟨m.keys[dataIndex w], List.getElem?_eq_getElem hkl, ?_⟩
    intro heq
    have hd' := h.dist _ _ _ _ hlt hd (List.getElem?_eq_getElem hkl) hk (by rw [heq, he])
    have := h.inj _ _ _ _ hw' hw hl (mkWord_live hs) (by rw [mkWord_index hs]; exact hd')
    have := pos_inj hc (by omega) hj this
    omega

theorem countP_add (l : List Word) (h : ∀ w ∈ l, isSet w = true) : l.countP live + l.countP dead = l.length := by
  induction l with
  | nil => rfl
  | cons w l ih =>
    have := ih (fun x hx => h x (List.mem_cons_of_mem _ hx))
    have hw := h w List.mem_cons_self
    rw [List.countP_cons, List.countP_cons, List.length_cons]
    unfold live Map.dead at *
    rw [hw]
    cases isDeleted w <;> simp <;> omega

/-- An absent key gets a free slot, or the table has no empty slot at all. -/
theorem find_miss {o : KeyOps K I} {m : Map K V} {t : Nat} (h : Inv o m t) {k : K}
    (ha : ∀ (d : Nat) k', d < m.len → m.keys[d]? = some k' → o.img k' ≠ o.img k) :
    (∃ j w, j < m.cap ∧ find o m.table m.cap m.keys k = .ok (pos m.cap (o.hash (o.img k)) j) ∧
      m.table[pos m.cap (o.hash (o.img k)) j]? = some w ∧ live w = false ∧
      ∀ j', j' < j → ∃ w, m.table[pos m.cap (o.hash (o.img k)) j']? = some w ∧ isSet w = true) ∨
    (find o m.table m.cap m.keys k = .abort ∧ (∀ w ∈ m.table, isSet w = true) ∧ m.cap ≤ m.len + t) := by
  have hc : 0 < m.cap := by have := h.cap16; omega
  have := findLoop_miss o m.table m.cap m.keys k (o.hash (o.img k)) hc h.tl (by
    intro x w hw hl
    have hlt := h.lt x w hw hl
    have hkl : dataIndex w < m.keys.length := by have := h.kl; have := h.load; omega
    exact ⟨_, List.getElem?_eq_getElem hkl, ha _ _ hlt (List.getElem?_eq_getElem hkl)⟩) m.cap 0 none (by omega)
  unfold find
  rw [← pos_zero hc]
  rcases this with ⟨r, e, _, h2⟩ | ⟨e, h1⟩
  · left
    obtain ⟨j2, _, a2, a3, ⟨w, hw, hl⟩, a5⟩ := h2 rfl
    subst a3
    exact ⟨j2, w, a2, e, hw, hl, fun j' hj' => a5 j' (Nat.zero_le _) hj'⟩
  · right
    have hall : ∀ w ∈ m.table, isSet w = true := by
      intro w hw
      obtain ⟨x, hx, hxw⟩ := List.mem_iff_getElem.1 hw
      obtain ⟨j, hj, hjx⟩ := pos_surj hc (o.hash (o.img k)) (x := x) (by rw [← h.tl]; exact hx)
      obtain ⟨w', hw', hs⟩ := h1 j (Nat.zero_le _) hj
      rw [hjx, List.getElem?_eq_getElem hx, hxw] at hw'
      cases hw'; exact hs
    refine ⟨e, hall, ?_⟩
    have := countP_add m.table hall
    have := h.cnt
    have := h.dead
    have := h.tl
    omega

theorem getElem?_set' {α} {l : List α} {i j : Nat} {a x : α} (h : (l.set i a)[j]? = some x) :
    (j = i ∧ x = a ∧ i < l.length) ∨ (j ≠ i ∧ l[j]? = some x) := by
  by_cases hj : j = i
  · subst hj
    have hl : j < l.length := by
      have := (List.getElem?_eq_some_iff.1 h).1
      simpa using this
    rw [List.getElem?_set_self hl] at h
    cases h; exact Or.inl ⟨rfl, rfl, hl⟩
  · rw [List.getElem?_set_ne (by omega)] at h
    exact Or.inr ⟨hj, h⟩

theorem countP_set_eq {l : List Word} {i : Nat} {w : Word} (p : Word → Bool) (h : l[i]? = some w) (a : Word) :
    (l.set i a).countP p + (if p w = true then 1 else 0) = l.countP p + (if p a = true then 1 else 0) := by
  induction l generalizing i with
  | nil => simp at h
  | cons x l ih =>
    cases i with
    | zero =>
      simp only [List.getElem?_cons_zero, Option.some.injEq] at h
      subst h
      simp only [List.set_cons_zero, List.countP_cons]
      omega
    | succ i =>
      simp only [List.getElem?_cons_succ] at h
      have := ih h
      simp only [List.set_cons_succ, List.countP_cons]
      omega

/-- Inserting a new key at a free slot keeps the invariant. -/
theorem Inv.insert {o : KeyOps K I} {m : Map K V} {t : Nat} (h : Inv o m t) {k : K} (v : V)
    (ha : ∀ (d : Nat) k', d < m.len → m.keys[d]? = some k' → o.img k' ≠ o.img k)
    (hg : ¬ needGrow m.len m.cap) {j : Nat} {w : Word} (hj : j < m.cap)
    (hw : m.table[pos m.cap (o.hash (o.img k)) j]? = some w) (hl : live w = false)
    (hp : ∀ j', j' < j → ∃ w, m.table[pos m.cap (o.hash (o.img k)) j']? = some w ∧ isSet w = true) :
    Inv o { m with len := m.len + 1, table := m.table.set (pos m.cap (o.hash (o.img k)) j) (mkWord m.len),
                   keys := m.keys.set m.len k, vals := m.vals.set m.len v } t := by
  have hc : 0 < m.cap := by have := h.cap16; omega
  have hs := h.small (Nat.le_refl _)
  unfold needGrow at hg
  have hlc : m.len < m.cap := by omega
  have htl := h.tl
  have hkl := h.kl
  have hposlt := pos_lt hc (o.hash (o.img k)) hj
  refine ⟨h.cap16, h.capB, by simp [h.tl], by simp [h.kl], by simp [h.vl], by simp only; omega, ?_, ?_, ?_, ?_, ?_, ?_⟩
  · intro x u hu hlu
    simp only at hu ⊢
    rcases getElem?_set' hu with ⟨_, e, _⟩ | ⟨_, e⟩
    · subst e; rw [mkWord_index hs]; omega
    · have := h.lt x u e hlu; omega
  · intro x y u u' hu hu' hlu hlu' he
    simp only at hu hu'
    rcases getElem?_set' hu with ⟨e1, e2, _⟩ | ⟨e1, e2⟩
    · rcases getElem?_set' hu' with ⟨e3, e4, _⟩ | ⟨e3, e4⟩
      · rw [e1, e3]
      · subst e2
        rw [mkWord_index hs] at he
        have := h.lt y u' e4 hlu'; omega
    · rcases getElem?_set' hu' with ⟨e3, e4, _⟩ | ⟨e3, e4⟩
      · subst e4
        rw [mkWord_index hs] at he
        have := h.lt x u e2 hlu; omega
      · exact h.inj x y u u' e2 e4 hlu hlu' he
  · intro d kd hd hkd
    simp only at hd hkd ⊢
    rcases getElem?_set' hkd with ⟨e1, e2, _⟩ | ⟨e1, e2⟩
    · subst e1 e2
      refine ⟨j, hj, by rw [List.getElem?_set_self (by omega)], fun j' hj' => ?_⟩
      obtain ⟨w', hw', hs'⟩ := hp j' hj'
      refine ⟨w', ?_, hs'⟩
      rw [List.getElem?_set_ne, hw']
      intro e
      have := pos_inj hc hj (by omega) e
      omega
    · obtain ⟨i, hi, hwi, hpi⟩ := h.path d kd (by omega) e2
      have hsd := h.small (d := d) (by omega)
      refine ⟨i, hi, ?_, fun i' hi' => ?_⟩
      · rw [List.getElem?_set_ne, hwi]
        intro e
        rw [← e, hw] at hwi
        cases hwi
        rw [mkWord_live hsd] at hl; cases hl
      · obtain ⟨w', hw', hs'⟩ := hpi i' hi'
        by_cases e : pos m.cap (o.hash (o.img k)) j = pos m.cap (o.hash (o.img kd)) i'
        · refine ⟨mkWord m.len, ?_, mkWord_set hs⟩
          rw [← e, List.getElem?_set_self (by omega)]
        · exact ⟨w', by rw [List.getElem?_set_ne e]; exact hw', hs'⟩
  · intro d d' kd kd' hd hd' hk hk' he
    simp only at hd hd' hk hk'
    rcases getElem?_set' hk with ⟨e1, e2, _⟩ | ⟨e1, e2⟩
    · rcases getElem?_set' hk' with ⟨e3, e4, _⟩ | ⟨e3, e4⟩
      · omega
      · subst e2
        exact absurd he.symm (ha d' kd' (by omega) e4)
    · rcases getElem?_set' hk' with ⟨e3, e4, _⟩ | ⟨e3, e4⟩
      · subst e4
        exact absurd he (ha d kd (by omega) e2)
      · exact h.dist d d' kd kd' (by omega) (by omega) e2 e4 he
  · have := countP_set_eq live hw (mkWord m.len)
    rw [hl, mkWord_live hs] at this
    have := h.cnt
    simp only; simp at *; omega
  · have := countP_set_eq Map.dead hw (mkWord m.len)
    have hdd : Map.dead (mkWord m.len) = false := by unfold Map.dead; rw [mkWord_del hs]; simp
    rw [hdd] at this
    have hd0 := h.dead
    simp only
    split at this <;> simp at this <;> omega

/-- Overwriting the key of an entry by one with the same image. -/
theorem Inv.rekey {o : KeyOps K I} {m : Map K V} {t : Nat} (h : Inv o m t) {k k' : K} (v : V) {d : Nat} (hd : d < m.len)
    (hk : m.keys[d]? = some k') (he : o.img k' = o.img k) :
    Inv o { m with keys := m.keys.set d k, vals := m.vals.set d v } t := by
  refine ⟨h.cap16, h.capB, h.tl, by simp [h.kl], by simp [h.vl], h.load, h.lt, h.inj, ?_, ?_, h.cnt, h.dead⟩
  · intro d1 k1 h1 hk1
    simp only at h1 hk1 ⊢
    rcases getElem?_set' hk1 with ⟨e1, e2, _⟩ | ⟨e1, e2⟩
    · subst e1 e2; rw [← he]; exact h.path _ _ hd hk
    · exact h.path d1 k1 h1 e2
  · intro d1 d2 k1 k2 h1 h2 hk1 hk2 e
    simp only at h1 h2 hk1 hk2
    rcases getElem?_set' hk1 with ⟨e1, e2, _⟩ | ⟨e1, e2⟩
    · rcases getElem?_set' hk2 with ⟨e3, e4, _⟩ | ⟨e3, e4⟩
      · omega
      · subst e1 e2
        exact h.dist _ _ k' k2 h1 h2 hk e4 (by rw [he, e])
    · rcases getElem?_set' hk2 with ⟨e3, e4, _⟩ | ⟨e3, e4⟩
      · subst e3 e4
        exact h.dist _ _ k1 k' h1 h2 e2 hk (by rw [he, e])
      · exact h.dist _ _ k1 k2 h1 h2 e2 e4 e

theorem set_self {α} {l : List α} {i : Nat} {v : α} (hv : l[i]? = some v) : l.set i v = l := by
  apply List.ext_getElem?
  intro k
  by_cases hk : k = i
  · subst hk; rw [List.getElem?_set_self ((List.getElem?_eq_some_iff.1 hv).1), hv]
  · rw [List.getElem?_set_ne (by omega)]

theorem word_ok {table : List Word} {h : Nat} {w : Word} (hw : table[h]? = some w) : word table h = .ok w := by
  unfold word; rw [hw]

theorem cell_ok {α} {l : List α} {i : Nat} {x : α} (h : l[i]? = some x) : cell l i = .ok x := by
  unfold cell; rw [h]

/-- A key is present or absent. -/
theorem present_or_absent (o : KeyOps K I) (m : Map K V) (k : K) :
    (∃ d k', d < m.len ∧ m.keys[d]? = some k' ∧ o.img k' = o.img k) ∨
    (∀ (d : Nat) k', d < m.len → m.keys[d]? = some k' → o.img k' ≠ o.img k) := by
  by_cases h : ∃ d k', d < m.len ∧ m.keys[d]? = some k' ∧ o.img k' = o.img k
  · exact Or.inl h
  · right
    intro d k' h1 h2 h3
    exact h ⟨d, k', h1, h2, h3⟩

/-- Assignment without growth, key present. -/
theorem assignCore_hit {o : KeyOps K I} {m : Map K V} {t : Nat} (h : Inv o m t) {d : Nat} {k k' : K} (v : V) (hd : d < m.len)
    (hk : m.keys[d]? = some k') (he : o.img k' = o.img k) :
    (assignCore o m k).bind (storeVal · v) = .ok { m with keys := m.keys.set d k, vals := m.vals.set d v } := by
  obtain ⟨j, hj, hf, hw⟩ := find_hit h hd hk he
  have hs := h.small (Nat.le_of_lt hd)
  have hkl : d < m.keys.length := (List.getElem?_eq_some_iff.1 hk).1
  unfold assignCore
  rw [hf, Res.bind_ok, word_ok hw, Res.bind_ok]
  simp only [mkWord_set hs, mkWord_del hs, mkWord_index hs, Bool.true_eq_false, Bool.false_eq_true, if_false, hkl, if_true]
  rw [Res.bind_ok, set_self hw]
  unfold storeVal
  simp only
  rw [if_pos (by have := h.vl; have := h.kl; omega)]

/-- Assignment without growth, key absent. -/
theorem assignCore_miss {o : KeyOps K I} {m : Map K V} {t : Nat} (h : Inv o m t) {k : K} (v : V)
    (ha : ∀ (d : Nat) k', d < m.len → m.keys[d]? = some k' → o.img k' ≠ o.img k) (hg : ¬ needGrow m.len m.cap) :
    (∃ tb, (assignCore o m k).bind (storeVal · v) = .ok ⟨m.cap, m.len + 1, tb, m.keys.set m.len k, m.vals.set m.len v⟩ ∧
      Inv o ⟨m.cap, m.len + 1, tb, m.keys.set m.len k, m.vals.set m.len v⟩ t) ∨
    ((assignCore o m k).bind (storeVal · v) = .abort ∧ (∀ w ∈ m.table, isSet w = true) ∧ m.cap ≤ m.len + t) := by
  rcases find_miss h ha with ⟨j, w, hj, hf, hw, hl, hp⟩ | ⟨hf, hall, hcap⟩
  · left
    refine ⟨_, ?_, h.insert v ha hg hj hw hl hp⟩
    have hlen : m.len < m.keys.length := by unfold needGrow at hg; have := h.kl; have := h.cap16; omega
    unfold assignCore
    rw [hf, Res.bind_ok, word_ok hw, Res.bind_ok]
    have e1 : (if isSet w = false then m.len else if isDeleted w = true then m.len else dataIndex w) = m.len := by
      by_cases h1 : isSet w = false
      · rw [if_pos h1]
      · rw [if_neg h1]
        rw [if_pos]
        unfold live at hl
        simp at h1; simp [h1] at hl; exact hl
    have e2 : (if isSet w = false then m.len + 1 else if isDeleted w = true then m.len + 1 else m.len) = m.len + 1 := by
      by_cases h1 : isSet w = false
      · rw [if_pos h1]
      · rw [if_neg h1]
        rw [if_pos]
        unfold live at hl
        simp at h1; simp [h1] at hl; exact hl
    simp only [e1, e2, hlen, if_true]
    rw [Res.bind_ok]
    unfold storeVal
    simp only
    rw [if_pos (by have := h.vl; have := h.kl; omega)]
  · right
    refine ⟨?_, hall, hcap⟩
    unfold assignCore
    rw [hf]; rfl

end Nature.Map
