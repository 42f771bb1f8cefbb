import Verif.Reloc.ThunkLay
/-! Lemmas about the planning of thunks. -/
namespace Nature.Reloc.Thunk

theorem findEntry_some {key : Key} : ∀ (es : List Entry) (n i : Nat), findEntry es key n = some i →
    n ≤ i ∧ ∃ e, es[i - n]? = some e ∧ e.key = key := by
  intro es
  induction es with
  | nil => intro n i h; simp [findEntry] at h
  | cons e es ih =>
    intro n i h
    simp only [findEntry] at h
    split at h
    · have := Option.some.inj h
      subst this
      rename_i hk
      exact ⟨Nat.le_refl _, e, by simp, hk⟩
    · obtain ⟨h1, x, h2, h3⟩ := ih (n + 1) i h
      refine ⟨by omega, x, ?_, h3⟩
      rw [show i - n = (i - (n + 1)) + 1 from by omega]
      simpa using h2

theorem findEntry_none {key : Key} : ∀ (es : List Entry) (n : Nat), findEntry es key n = none → ∀ e, e ∈ es → e.key ≠ key := by
  intro es
  induction es with
  | nil => intro n _ e he; simp at he
  | cons x es ih =>
    intro n h e he
    simp only [findEntry] at h
    split at h
    · cases h
    · rename_i hk
      rcases List.mem_cons.mp he with rfl | he
      · exact hk
      · exact ih (n + 1) h e he

/-- Key `key` has an entry in group `g`. -/
def Has (g : Groups) (k : Nat) (key : Key) : Prop := ∃ e ∈ (g.at_ k).entries, e.key = key

/-- A branch has an entry. -/
def Covered (inp : Input) (g : Groups) (b : Branch) : Prop := ∃ k, g.of b.placement = some k ∧ Has g k (keyOf inp b)

structure Grown (s s' : ScanSt) : Prop where
  same : Same s.groups s'.groups
  island : ∀ k, (s'.groups.at_ k).island = (s.groups.at_ k).island
  prefix_ : ∀ k, ∃ l, (s'.groups.at_ k).entries = (s.groups.at_ k).entries ++ l
  added : s.added = true → s'.added = true
  still : s'.added = false → ∀ k, s'.groups.at_ k = s.groups.at_ k

theorem Grown.refl (s : ScanSt) : Grown s s :=
  ⟨Same.refl _, fun _ => rfl, fun _ => ⟨[], by simp⟩, id, fun _ _ => rfl⟩

theorem Grown.trans {a b c : ScanSt} (h : Grown a b) (h' : Grown b c) : Grown a c := by
  refine ⟨h.same.trans h'.same, fun k => (h'.island k).trans (h.island k), ?_, fun x => h'.added (h.added x), ?_⟩
  · intro k
    obtain ⟨l, hl⟩ := h.prefix_ k
    obtain ⟨l', hl'⟩ := h'.prefix_ k
    exact ⟨l ++ l', by rw [hl', hl, List.append_assoc]⟩
  · intro hc k
    have hb : b.added = false := by
      cases hx : b.added with
      | false => rfl
      | true => rw [h'.added hx] at hc; cases hc
    rw [h'.still hc k, h.still hb k]

theorem Has.grown {s s' : ScanSt} (g : Grown s s') {k : Nat} {key : Key} (h : Has s.groups k key) : Has s'.groups k key := by
  obtain ⟨e, he, hk⟩ := h
  obtain ⟨l, hl⟩ := g.prefix_ k
  exact ⟨e, by rw [hl]; exact List.mem_append_left _ he, hk⟩

theorem Covered.grown {inp : Input} {s s' : ScanSt} (g : Grown s s') {b : Branch} (h : Covered inp s.groups b) :
    Covered inp s'.groups b := by
  obtain ⟨k, h1, h2⟩ := h
  exact ⟨k, by rw [g.same.of]; exact h1, h2.grown g⟩

/-- What one turn of the scan leaves behind for its branch. -/
def Noted (inp : Input) (lay : Lay) (e : Env) (k : Nat) (b : Branch) (s : ScanSt) : Prop :=
  ∃ place target, branchAddresses inp lay e b = some (place, target) ∧ (branch26Fits target place = true ∨
    ∃ g i x, s.groups.of b.placement = some g ∧ g < s.groups.count ∧ s.index k = some i ∧
      (s.groups.at_ g).entries[i]? = some x ∧ x.key = keyOf inp b)

theorem scanStep_out {inp : Input} {lay : Lay} {e : Env} {k : Nat} {b : Branch} {s s' : ScanSt}
    (h : scanStep inp lay e k b s = some s') :
    Grown s s' ∧ (∀ j, j ≠ k → s'.index j = s.index j) ∧ Noted inp lay e k b s' ∧
      (s.added = false → s'.added = true → ¬ Covered inp s.groups b ∧ Covered inp s'.groups b) := by
  unfold scanStep at h
  simp only [Option.bind_eq_some_iff, Prod.exists] at h
  obtain ⟨place, target, ha, h⟩ := h
  split at h
  · rename_i hf
    have := Option.some.inj h
    subst this
    exact ⟨Grown.refl _, fun _ _ => rfl, ⟨place, target, ha, .inl hf⟩, fun h1 h2 => by rw [h1] at h2; cases h2⟩
  · split at h
    · cases h
    · rename_i g hg
      split at h
      · cases h
      · rename_i hgc
        have hgc : g < s.groups.count := by omega
        simp only [Option.bind_eq_some_iff, Prod.exists] at h
        obtain ⟨es, i, added, hf, h⟩ := h
        have := Option.some.inj h
        subst this
        unfold findOrAdd at hf
        split at hf
        · rename_i i' hi'
          have := Option.some.inj hf
          simp only [Prod.mk.injEq] at this
          obtain ⟨rfl, rfl, rfl⟩ := this
          obtain ⟨_, x, hx, hxk⟩ := findEntry_some _ _ _ hi'
          have same : ∀ k, (put s.groups.at_ g { s.groups.at_ g with entries := (s.groups.at_ g).entries }) k = s.groups.at_ k := by
            intro k
            simp only [put]
            split
            · rename_i h; subst h; rfl
            · rfl
          refine ⟨⟨⟨rfl, rfl, ?_⟩, ?_, ?_, ?_, ?_⟩, ?_, ⟨place, target, ha, .inr ⟨g, i', x, hg, hgc, by simp [put], ?_, hxk⟩⟩, ?_⟩
          · intro k; simp only [same]
          · intro k; simp only [same]
          · intro k; simp only [same]; exact ⟨[], by simp⟩
          · intro h; simp [h]
          · intro _ k; exact same k
          · intro j hj; exact put_other _ _ hj
          · simp only [same]; simpa using hx
          · intro h1 h2
            simp [h1] at h2
        · rename_i hn
          split at hf
          · cases hf
          · have := Option.some.inj hf
            simp only [Prod.mk.injEq] at this
            obtain ⟨rfl, rfl, rfl⟩ := this
            refine ⟨⟨⟨rfl, rfl, ?_⟩, ?_, ?_, ?_, ?_⟩, ?_, ⟨place, target, ha, .inr ⟨g, (s.groups.at_ g).entries.length, ⟨keyOf inp b, false⟩,
              hg, hgc, by simp [put], ?_, rfl⟩⟩, ?_⟩
            · intro k; simp only [put]; split <;> simp_all
            · intro k; simp only [put]; split <;> simp_all
            · intro k
              simp only [put]
              split
              · rename_i h; subst h; exact ⟨_, rfl⟩
              · exact ⟨[], by simp⟩
            · intro _; simp
            · intro h; simp at h
            · intro j hj; exact put_other _ _ hj
            · simp only [put_same]
              simp
            · intro _ _
              constructor
              · rintro ⟨k, h1, y, h2, h3⟩
                rw [hg] at h1
                cases h1
                exact findEntry_none _ _ hn y h2 h3
              · refine ⟨g, hg, ⟨keyOf inp b, false⟩, ?_, rfl⟩
                simp only [put_same]
                simp

theorem Noted.grown {inp : Input} {lay : Lay} {e : Env} {k : Nat} {b : Branch} {s s' : ScanSt} (g : Grown s s')
    (hi : s'.index k = s.index k) (h : Noted inp lay e k b s) : Noted inp lay e k b s' := by
  obtain ⟨place, target, h1, h2⟩ := h
  refine ⟨place, target, h1, ?_⟩
  rcases h2 with h2 | ⟨gi, i, x, h3, h4, h5, h6, h7⟩
  · exact .inl h2
  · refine .inr ⟨gi, i, x, by rw [g.same.of]; exact h3, by rw [g.same.count]; exact h4, by rw [hi]; exact h5, ?_, h7⟩
    obtain ⟨l, hl⟩ := g.prefix_ gi
    rw [hl]
    have := (List.getElem?_eq_some_iff.mp h6).1
    rw [List.getElem?_append_left this]
    exact h6

theorem scanLoop_out {inp : Input} {lay : Lay} {e : Env} : ∀ (bs : List Branch) (k : Nat) (s s' : ScanSt),
    scanLoop inp lay e k bs s = some s' →
    Grown s s' ∧ (∀ j, j < k → s'.index j = s.index j) ∧ (∀ j b, bs[j]? = some b → Noted inp lay e (k + j) b s') ∧
      (s.added = false → s'.added = true → ∃ b ∈ bs, ¬ Covered inp s.groups b ∧ Covered inp s'.groups b) := by
  intro bs
  induction bs with
  | nil =>
    intro k s s' h
    simp only [scanLoop] at h
    cases h
    exact ⟨Grown.refl _, fun _ _ => rfl, by simp, fun h1 h2 => by rw [h1] at h2; cases h2⟩
  | cons b bs ih =>
    intro k s s' h
    simp only [scanLoop, Option.bind_eq_some_iff] at h
    obtain ⟨s1, h1, h2⟩ := h
    obtain ⟨g1, i1, n1, c1⟩ := scanStep_out h1
    obtain ⟨g2, i2, n2, c2⟩ := ih (k + 1) s1 s' h2
    refine ⟨g1.trans g2, ?_, ?_, ?_⟩
    · intro j hj
      rw [i2 j (by omega), i1 j (by omega)]
    · intro j b' hb'
      cases j with
      | zero =>
        simp only [List.getElem?_cons_zero, Option.some.injEq] at hb'
        subst hb'
        exact n1.grown g2 (i2 k (by omega))
      | succ j =>
        simp only [List.getElem?_cons_succ] at hb'
        have := n2 j b' hb'
        rw [show k + (j + 1) = k + 1 + j from by omega]
        exact this
    · intro h3 h4
      cases hs : s1.added with
      | true =>
        obtain ⟨h5, h6⟩ := c1 h3 hs
        exact ⟨b, List.mem_cons_self, h5, h6.grown g2⟩
      | false =>
        obtain ⟨b', hb', h5, h6⟩ := c2 hs h4
        exact ⟨b', List.mem_cons_of_mem _ hb', fun h => h5 (h.grown g1), h6⟩

/-! ### Marking -/

theorem markUsed_length : ∀ (es : List Entry) (i : Nat), (markUsed es i).length = es.length := by
  intro es
  induction es with
  | nil => intro i; rfl
  | cons e es ih =>
    intro i
    cases i with
    | zero => rfl
    | succ i => simp [markUsed, ih]

theorem markUsed_get : ∀ (es : List Entry) (i j : Nat) (x : Entry), es[j]? = some x →
    (markUsed es i)[j]? = some (if j = i then { x with used := true } else x) := by
  intro es
  induction es with
  | nil => intro i j x h; simp at h
  | cons e es ih =>
    intro i j x h
    cases i with
    | zero =>
      cases j with
      | zero => simp at h; subst h; simp [markUsed]
      | succ j => simp at h; simp [markUsed, h]
    | succ i =>
      cases j with
      | zero => simp at h; subst h; simp [markUsed]
      | succ j =>
        simp at h
        simp [markUsed, ih i j x h]

/-- Same groups up to marks, which are only added. -/
structure Marked (g g' : Groups) : Prop where
  same : Same g g'
  island : ∀ k, (g'.at_ k).island = (g.at_ k).island
  length : ∀ k, (g'.at_ k).entries.length = (g.at_ k).entries.length
  get : ∀ (k i : Nat) (x : Entry), (g.at_ k).entries[i]? = some x → ∃ y : Entry, (g'.at_ k).entries[i]? = some y ∧ y.key = x.key ∧ (x.used = true → y.used = true)

theorem Marked.refl (g : Groups) : Marked g g := ⟨Same.refl _, fun _ => rfl, fun _ => rfl, fun _ _ x h => ⟨x, h, rfl, id⟩⟩

theorem Marked.trans {a b c : Groups} (h : Marked a b) (h' : Marked b c) : Marked a c := by
  refine ⟨h.same.trans h'.same, fun k => (h'.island k).trans (h.island k), fun k => (h'.length k).trans (h.length k), ?_⟩
  intro k i x hx
  obtain ⟨y, h1, h2, h3⟩ := h.get k i x hx
  obtain ⟨z, h4, h5, h6⟩ := h'.get k i y h1
  exact ⟨z, h4, h5.trans h2, fun h => h6 (h3 h)⟩

theorem Marked.address {g g' : Groups} (h : Marked g g') (e : Env) (k i : Nat) : thunkAddress g' e k i = thunkAddress g e k i := by
  unfold thunkAddress
  rw [h.same.count, h.length, h.island]

/-- What the validation found out about a branch. -/
def Valid (inp : Input) (lay : Lay) (e : Env) (index : Nat → Option Nat) (k : Nat) (b : Branch) (g : Groups) : Prop :=
  ∃ place target, branchAddresses inp lay e b = some (place, target) ∧ (branch26Fits target place = true ∨
    ∃ gi i a, g.of b.placement = some gi ∧ gi < g.count ∧ index k = some i ∧ i < (g.at_ gi).entries.length ∧
      thunkAddress g e gi i = some a ∧ branch26Fits a place = true ∧ ∃ x, (g.at_ gi).entries[i]? = some x ∧ x.used = true)

theorem Valid.marked {inp : Input} {lay : Lay} {e : Env} {index : Nat → Option Nat} {k : Nat} {b : Branch} {g g' : Groups}
    (m : Marked g g') (h : Valid inp lay e index k b g) : Valid inp lay e index k b g' := by
  obtain ⟨place, target, h1, h2⟩ := h
  refine ⟨place, target, h1, ?_⟩
  rcases h2 with h2 | ⟨gi, i, a, h3, h4, h5, h6, h7, h8, x, h9, h10⟩
  · exact .inl h2
  · obtain ⟨y, hy, _, hu⟩ := m.get gi i x h9
    exact .inr ⟨gi, i, a, by rw [m.same.of]; exact h3, by rw [m.same.count]; exact h4, h5, by rw [m.length]; exact h6,
      by rw [m.address]; exact h7, h8, y, hy, hu h10⟩

theorem validateStep_out {inp : Input} {lay : Lay} {e : Env} {index : Nat → Option Nat} {k : Nat} {b : Branch} {g g' : Groups}
    (h : validateStep inp lay e index k b g = some g') : Marked g g' ∧ Valid inp lay e index k b g' := by
  unfold validateStep at h
  simp only [Option.bind_eq_some_iff, Prod.exists] at h
  obtain ⟨place, target, ha, h⟩ := h
  split at h
  · rename_i hf
    have := Option.some.inj h
    subst this
    exact ⟨Marked.refl _, place, target, ha, .inl hf⟩
  · split at h
    · rename_i gi i hg hi
      split at h
      · cases h
      · split at h
        · cases h
        · rename_i h1 h2
          simp only [Option.bind_eq_some_iff] at h
          obtain ⟨a, h3, h⟩ := h
          split at h
          · rename_i hf
            have := Option.some.inj h
            subst this
            have m : Marked g { g with at_ := put g.at_ gi { g.at_ gi with entries := markUsed (g.at_ gi).entries i } } := by
              refine ⟨⟨rfl, rfl, ?_⟩, ?_, ?_, ?_⟩
              · intro k; simp only [put]; split <;> simp_all
              · intro k; simp only [put]; split <;> simp_all
              · intro k
                simp only [put]
                split
                · rename_i h; subst h; simp [markUsed_length]
                · rfl
              · intro k j x hx
                simp only [put]
                split
                · rename_i h
                  subst h
                  refine ⟨_, markUsed_get _ i j x hx, ?_, ?_⟩ <;> split <;> simp
                · exact ⟨x, hx, rfl, id⟩
            refine ⟨m, place, target, ha, .inr ⟨gi, i, a, hg, by simp only; omega, hi, ?_, ?_, hf, ?_⟩⟩
            · rw [m.length]; omega
            · rw [m.address]; exact h3
            · have hlt : i < (g.at_ gi).entries.length := by omega
              refine ⟨{ (g.at_ gi).entries[i] with used := true }, ?_, ?_⟩
              · simp only [put_same]
                rw [markUsed_get _ i i (g.at_ gi).entries[i] (List.getElem?_eq_getElem hlt), if_pos rfl]
              · rfl
          · cases h
    · cases h

theorem validateLoop_out {inp : Input} {lay : Lay} {e : Env} {index : Nat → Option Nat} : ∀ (bs : List Branch) (k : Nat) (g g' : Groups),
    validateLoop inp lay e index k bs g = some g' →
    Marked g g' ∧ ∀ j b, bs[j]? = some b → Valid inp lay e index (k + j) b g' := by
  intro bs
  induction bs with
  | nil =>
    intro k g g' h
    simp only [validateLoop] at h
    cases h
    exact ⟨Marked.refl _, by simp⟩
  | cons b bs ih =>
    intro k g g' h
    simp only [validateLoop, Option.bind_eq_some_iff] at h
    obtain ⟨g1, h1, h2⟩ := h
    obtain ⟨m1, v1⟩ := validateStep_out h1
    obtain ⟨m2, v2⟩ := ih (k + 1) g1 g' h2
    refine ⟨m1.trans m2, ?_⟩
    intro j b' hb'
    cases j with
    | zero =>
      simp only [List.getElem?_cons_zero, Option.some.injEq] at hb'
      subst hb'
      exact v1.marked m2
    | succ j =>
      simp only [List.getElem?_cons_succ] at hb'
      rw [show k + (j + 1) = k + 1 + j from by omega]
      exact v2 j b' hb'

theorem markUsed_blame : ∀ (es : List Entry) (i j : Nat) (y : Entry), (markUsed es i)[j]? = some y → y.used = true →
    j = i ∨ ∃ x, es[j]? = some x ∧ x.used = true := by
  intro es
  induction es with
  | nil => intro i j y h; simp [markUsed] at h
  | cons e es ih =>
    intro i j y h hu
    cases i with
    | zero =>
      cases j with
      | zero => exact .inl rfl
      | succ j => simp [markUsed] at h; exact .inr ⟨y, by simpa using h, hu⟩
    | succ i =>
      cases j with
      | zero => simp [markUsed] at h; subst h; exact .inr ⟨e, by simp, hu⟩
      | succ j =>
        simp [markUsed] at h
        rcases ih i j y h hu with h | ⟨x, h1, h2⟩
        · exact .inl (by omega)
        · exact .inr ⟨x, by simpa using h1, h2⟩

theorem validateLoop_blame {inp : Input} {lay : Lay} {e : Env} {index : Nat → Option Nat} : ∀ (bs : List Branch) (k : Nat) (g g' : Groups),
    validateLoop inp lay e index k bs g = some g' → ∀ (gi i : Nat) (y : Entry), (g'.at_ gi).entries[i]? = some y → y.used = true →
      (∃ x, (g.at_ gi).entries[i]? = some x ∧ x.used = true) ∨
      ∃ j b place target, bs[j]? = some b ∧ branchAddresses inp lay e b = some (place, target) ∧ branch26Fits target place = false ∧
        index (k + j) = some i ∧ g.of b.placement = some gi := by
  intro bs
  induction bs with
  | nil =>
    intro k g g' h gi i y hy hu
    simp only [validateLoop] at h
    cases h
    exact .inl ⟨y, hy, hu⟩
  | cons b bs ih =>
    intro k g g' h gi i y hy hu
    simp only [validateLoop, Option.bind_eq_some_iff] at h
    obtain ⟨g1, h1, h2⟩ := h
    rcases ih (k + 1) g1 g' h2 gi i y hy hu with ⟨x, hx, hxu⟩ | ⟨j, b', place, target, e1, e2, e3, e4, e5⟩
    · unfold validateStep at h1
      simp only [Option.bind_eq_some_iff, Prod.exists] at h1
      obtain ⟨place, target, ha, h1⟩ := h1
      split at h1
      · have := Option.some.inj h1
        subst this
        exact .inl ⟨x, hx, hxu⟩
      · rename_i hf
        split at h1
        · rename_i gi' i' hg hi
          split at h1
          · cases h1
          · split at h1
            · cases h1
            · simp only [Option.bind_eq_some_iff] at h1
              obtain ⟨a, _, h1⟩ := h1
              split at h1
              · have := Option.some.inj h1
                subst this
                simp only [put] at hx
                split at hx
                · rename_i he
                  subst he
                  rcases markUsed_blame _ _ _ _ hx hxu with h | h
                  · subst h
                    exact .inr ⟨0, b, place, target, rfl, ha, by simpa using hf, hi, hg⟩
                  · exact .inl h
                · exact .inl ⟨x, hx, hxu⟩
              · cases h1
        · cases h1
    · right
      obtain ⟨m, _⟩ := validateStep_out h1
      exact ⟨j + 1, b', place, target, by simpa using e1, e2, e3, by rw [← e4]; congr 1; omega, by rw [← m.same.of]; exact e5⟩

/-! ### The plan -/

/-- A branch is served by the plan. -/
def Served (inp : Input) (p : Plan) (k : Nat) (b : Branch) : Prop :=
  ∃ place target, branchAddresses inp p.lay p.env b = some (place, target) ∧ (branch26Fits target place = true ∨
    ∃ gi i a x, p.groups.of b.placement = some gi ∧ gi < p.groups.count ∧ p.index k = some i ∧
      thunkAddress p.groups p.env gi i = some a ∧ branch26Fits a place = true ∧
      (p.groups.at_ gi).entries[i]? = some x ∧ x.used = true ∧ x.key = keyOf inp b)

structure PlanOk (inp : Input) (p : Plan) : Prop where
  wf : Wf inp.placements p.groups
  laid : Laid inp.placements p.lay.offset p.groups 0 0 p.lay.size
  align : ∀ j q, inp.placements[j]? = some q → q.text = true → p.lay.offset j % (if q.align = 0 then 1 else q.align) = 0
  aligned : ∀ k, k < p.groups.count → (p.groups.at_ k).entries ≠ [] → (p.groups.at_ k).island % 4 = 0
  rest : ∀ j q, inp.placements[j]? = some q → q.text = false → p.lay.offset j = inp.offset j
  env : inp.outputs p.lay = some p.env
  served : ∀ k b, inp.branches[k]? = some b → Served inp p k b
  needed : ∀ (gi i : Nat) (x : Entry), (p.groups.at_ gi).entries[i]? = some x → x.used = true →
    ∃ k b place target, inp.branches[k]? = some b ∧ branchAddresses inp p.lay p.env b = some (place, target) ∧
      branch26Fits target place = false ∧ p.index k = some i ∧ p.groups.of b.placement = some gi

theorem Laid.transfer {pls : List Placement} {off : Nat → Nat} {g g' : Groups} {i c c' : Nat} (h : Laid pls off g i c c')
    (s : Same g g') (hi : ∀ k, (g'.at_ k).island = (g.at_ k).island) (hl : ∀ k, (g'.at_ k).entries.length = (g.at_ k).entries.length) :
    Laid pls off g' i c c' := by
  have lo : ∀ r : Region, r.lo off g' = r.lo off g := by intro r; cases r <;> simp [Region.lo, hi]
  have sz : ∀ r : Region, r.size pls g' = r.size pls g := by intro r; cases r <;> simp [Region.size, hl]
  have fr : ∀ r : Region, r.From pls g' i → r.From pls g i := by
    intro r; cases r with
    | sec j => exact id
    | isl k => rintro ⟨h1, h2⟩; exact ⟨by rw [← s.count]; exact h1, by rw [← s.last]; exact h2⟩
  refine ⟨h.le, ?_, ?_⟩
  · intro r hr
    rw [lo, sz]
    exact h.in_ r (fr r hr)
  · intro r r' hr hr' hne
    rw [lo, sz, lo, sz]
    exact h.apart r r' (fr r hr) (fr r' hr') hne

theorem relayout_out {inp : Input} {g g' : Groups} {lay lay' : Lay} (w : Wf inp.placements g) (h : relayout inp g lay = some (g', lay')) :
    Kept g g' ∧ Laid inp.placements lay'.offset g' 0 0 lay'.size ∧
    (∀ j q, inp.placements[j]? = some q → q.text = true → lay'.offset j % (if q.align = 0 then 1 else q.align) = 0) ∧
    (∀ k, k < g.count → (g.at_ k).entries ≠ [] → (g'.at_ k).island % 4 = 0) ∧
    (∀ j q, inp.placements[j]? = some q → q.text = false → lay'.offset j = lay.offset j) := by
  unfold relayout at h
  simp only [Option.bind_eq_some_iff] at h
  obtain ⟨s, h1, h2⟩ := h
  have := Option.some.inj h2
  simp only [Prod.mk.injEq] at this
  obtain ⟨rfl, rfl⟩ := this
  have o := layLoop_out inp.placements 0 _ s rfl w h1
  exact ⟨o.kept, o.laid, fun j q h1 h2 => o.align j q (Nat.zero_le _) h1 h2, fun k h1 h2 => o.aligned k h1 (Nat.zero_le _) h2,
    fun j q h1 h2 => o.off j (.inr ⟨q, h1, h2⟩)⟩

theorem planLoop_ok {inp : Input} : ∀ (n : Nat) (g : Groups) (index : Nat → Option Nat) (lay : Lay) (p : Plan), Wf inp.placements g →
    (∀ j q, inp.placements[j]? = some q → q.text = false → lay.offset j = inp.offset j) →
    planLoop inp n g index lay = .ok p → PlanOk inp p := by
  intro n
  induction n with
  | zero => intro g index lay p _ _ h; simp [planLoop] at h
  | succ n ih =>
    intro g index lay p w hrest h
    simp only [planLoop] at h
    split at h
    · cases h
    · rename_i g1 lay1 hr
      obtain ⟨kept, laid, al, ald, rest⟩ := relayout_out w hr
      have rest' : ∀ j q, inp.placements[j]? = some q → q.text = false → lay1.offset j = inp.offset j := by
        intro j q h1 h2
        rw [rest j q h1 h2, hrest j q h1 h2]
      split at h
      · cases h
      · rename_i e he
        split at h
        · cases h
        · rename_i s hs
          obtain ⟨grown, _, noted, _⟩ := scanLoop_out _ _ _ _ hs
          split at h
          · exact ih s.groups s.index lay1 p ((w.same kept.toSame).same grown.same) rest' h
          · rename_i hadd
            have hadd : s.added = false := by simpa using hadd
            split at h
            · cases h
            · rename_i g2 hv
              have := Except.ok.inj h
              subst this
              unfold validate at hv
              obtain ⟨m, valid⟩ := validateLoop_out _ _ _ _ hv
              -- clearing the marks
              generalize hg0 : ({ s.groups with at_ := fun i => { s.groups.at_ i with entries := (s.groups.at_ i).entries.map fun x => { x with used := false } } } : Groups) = g0 at hv m
              have same0 : Same s.groups g0 := by subst hg0; exact ⟨rfl, rfl, fun _ => rfl⟩
              have isl0 : ∀ k, (g0.at_ k).island = (s.groups.at_ k).island := by subst hg0; intro k; rfl
              have len0 : ∀ k, (g0.at_ k).entries.length = (s.groups.at_ k).entries.length := by subst hg0; intro k; simp
              have get0 : ∀ (k i : Nat) (x : Entry), (s.groups.at_ k).entries[i]? = some x → ∃ y : Entry, (g0.at_ k).entries[i]? = some y ∧ y.key = x.key := by
                subst hg0
                intro k i x hx
                exact ⟨{ x with used := false }, by simp [hx], rfl⟩
              have wf2 : Wf inp.placements g2 := ((w.same kept.toSame).same grown.same).same (same0.trans m.same)
              have same2 : Same g1 g2 := grown.same.trans (same0.trans m.same)
              have isl2 : ∀ k, (g2.at_ k).island = (g1.at_ k).island := by
                intro k
                rw [m.island, isl0, grown.still hadd]
              have len2 : ∀ k, (g2.at_ k).entries.length = (g1.at_ k).entries.length := by
                intro k
                rw [m.length, len0, grown.still hadd]
              refine ⟨wf2, laid.transfer same2 isl2 len2, al, ?_, rest', he, ?_, ?_⟩
              · intro k hk hne
                simp only at hk hne ⊢
                rw [isl2]
                refine ald k (by rw [same2.count, kept.count] at hk; exact hk) ?_
                intro h0
                apply hne
                apply List.eq_nil_of_length_eq_zero
                rw [len2, kept.entries, h0]
                rfl
              · intro k b hb
                obtain ⟨place, target, h1, h2⟩ := valid k b hb
                obtain ⟨place', target', h1', h2'⟩ := noted k b hb
                rw [h1] at h1'
                simp only [Option.some.injEq, Prod.mk.injEq] at h1'
                obtain ⟨rfl, rfl⟩ := h1'
                refine ⟨place, target, h1, ?_⟩
                rcases h2 with h2 | ⟨gi, i, a, h3, h4, h5, h6, h7, h8, x, h9, h10⟩
                · exact .inl h2
                · rcases h2' with h2' | ⟨gi', i', x', h3', h4', h5', h6', h7'⟩
                  · exact .inl h2'
                  · right
                    have e1 : gi' = gi := by
                      rw [m.same.of, same0.of, h3'] at h3
                      exact Option.some.inj h3
                    have e2 : i' = i := by
                      rw [Nat.zero_add] at h5 h5'
                      rw [h5'] at h5
                      exact Option.some.inj h5
                    subst e1
                    subst e2
                    obtain ⟨y, hy, hyk⟩ := get0 gi' i' x' h6'
                    obtain ⟨z, hz, hzk, _⟩ := m.get gi' i' y hy
                    have : z = x := by
                      rw [h9] at hz
                      exact (Option.some.inj hz).symm
                    subst this
                    rw [Nat.zero_add] at h5
                    exact ⟨gi', i', a, z, h3, h4, h5, h7, h8, h9, h10, by rw [hzk, hyk, h7']⟩
              · intro gi i x hx hu
                rcases validateLoop_blame _ _ _ _ hv gi i x hx hu with ⟨y, hy, hyu⟩ | ⟨j, b, place, target, e1, e2, e3, e4, e5⟩
                · exfalso
                  rw [← hg0] at hy
                  simp only [List.getElem?_map, Option.map_eq_some_iff] at hy
                  obtain ⟨z, _, hz⟩ := hy
                  rw [← hz] at hyu
                  cases hyu
                · refine ⟨j, b, place, target, e1, e2, e3, by rw [Nat.zero_add] at e4; exact e4, ?_⟩
                  simp only
                  rw [m.same.of]
                  exact e5

theorem plan_ok {inp : Input} {p : Plan} (h : plan inp = .ok p) : PlanOk inp p := by
  unfold plan at h
  split at h
  · cases h
  · rename_i g hg
    exact planLoop_ok _ _ _ _ _ (wf_build hg).1 (fun _ _ _ _ => rfl) h

/-! ### It converges -/

theorem countP_lt {α : Type} {p q : α → Bool} : ∀ (l : List α), (∀ x ∈ l, p x = true → q x = true) → (∃ x ∈ l, p x = false ∧ q x = true) →
    l.countP p < l.countP q := by
  intro l
  induction l with
  | nil => rintro _ ⟨x, hx, _⟩; simp at hx
  | cons a l ih =>
    intro h1 h2
    have le : l.countP p ≤ l.countP q := List.countP_mono_left fun x hx hp => h1 x (List.mem_cons_of_mem _ hx) hp
    obtain ⟨x, hx, hx1, hx2⟩ := h2
    rcases List.mem_cons.mp hx with rfl | hx
    · rw [List.countP_cons_of_neg (by simp [hx1]), List.countP_cons_of_pos (by simp [hx2])]
      omega
    · have lt := ih (fun y hy => h1 y (List.mem_cons_of_mem _ hy)) ⟨x, hx, hx1, hx2⟩
      have := h1 a List.mem_cons_self
      rw [List.countP_cons, List.countP_cons]
      split <;> split <;> simp_all <;> omega

open Classical in
/-- Branches that have an entry. -/
noncomputable def covered (inp : Input) (g : Groups) : Nat := inp.branches.countP fun b => decide (Covered inp g b)

theorem covered_le (inp : Input) (g : Groups) : covered inp g ≤ inp.branches.length := List.countP_le_length

theorem covered_kept {inp : Input} {g g' : Groups} (h : Kept g g') : covered inp g' = covered inp g := by
  unfold covered
  congr 1
  funext b
  simp only [decide_eq_decide]
  unfold Covered Has
  rw [h.of]
  simp only [h.entries]

theorem planLoop_converges {inp : Input} : ∀ (n : Nat) (g : Groups) (index : Nat → Option Nat) (lay : Lay), Wf inp.placements g →
    inp.branches.length < covered inp g + n → planLoop inp n g index lay ≠ .error .notConverged := by
  intro n
  induction n with
  | zero =>
    intro g index lay _ h
    have := covered_le inp g
    omega
  | succ n ih =>
    intro g index lay w hc h
    simp only [planLoop] at h
    split at h
    · cases h
    · rename_i g1 lay1 hr
      obtain ⟨kept, _⟩ := relayout_out w hr
      split at h
      · cases h
      · split at h
        · cases h
        · rename_i s hs
          obtain ⟨grown, _, _, cov⟩ := scanLoop_out _ _ _ _ hs
          split at h
          · rename_i hadd
            refine ih s.groups s.index lay1 ((w.same kept.toSame).same grown.same) ?_ h
            obtain ⟨b, hb, h1, h2⟩ := cov rfl hadd
            have : covered inp g1 < covered inp s.groups := by
              unfold covered
              apply countP_lt
              · intro x _ hx
                simp only [decide_eq_true_eq] at hx ⊢
                exact hx.grown grown
              · exact ⟨b, hb, by simpa using h1, by simpa using h2⟩
            rw [covered_kept kept] at this
            omega
          · split at h <;> cases h

end Nature.Reloc.Thunk
