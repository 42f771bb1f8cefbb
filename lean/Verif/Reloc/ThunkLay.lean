import Verif.Reloc.ThunkModel
/-! Lemmas about groups and the layout of the code. -/
namespace Nature.Reloc.Thunk

theorem put_same {α : Type} (f : Nat → α) (i : Nat) (v : α) : put f i v i = v := by simp [put]
theorem put_other {α : Type} (f : Nat → α) {i j : Nat} (v : α) (h : j ≠ i) : put f i v j = f j := by simp [put, h]

theorem addOverflow_some {a b c : Nat} (h : addOverflow a b = some c) : c = a + b := by
  unfold addOverflow at h
  split at h
  · cases h
  · exact (Option.some.inj h).symm

theorem addOverflow_lt {a b c : Nat} (hb : b < 2 ^ 64) (h : addOverflow a b = some c) : c < 2 ^ 64 := by
  unfold addOverflow at h
  split at h
  · cases h
  · have := Option.some.inj h
    omega

theorem addSigned_some {v : Nat} {a : Int} {c : Nat} (h : addSigned v a = some c) : (c : Int) = v + a := by
  unfold addSigned at h
  split at h
  · have := addOverflow_some h
    omega
  · simp only at h
    split at h
    · cases h
    · have := Option.some.inj h
      omega

theorem alignUp_some {v a c : Nat} (h : alignUp v a = some c) : v ≤ c ∧ c % (if a = 0 then 1 else a) = 0 ∧ c < v + (if a = 0 then 1 else a) := by
  unfold alignUp at h
  simp only at h
  generalize hb : (if a = 0 then 1 else a) = b at h ⊢
  have hpos : 0 < b := by split at hb <;> omega
  split at h
  · cases h
  · have h' := Option.some.inj h
    have h1 := Nat.mod_lt (v + (b - 1)) hpos
    have h2 := Nat.mod_add_div (v + (b - 1)) b
    refine ⟨by omega, ?_, by omega⟩
    rw [← h', show v + (b - 1) - (v + (b - 1)) % b = b * ((v + (b - 1)) / b) from by omega]
    exact Nat.mul_mod_right ..

/-- Groups fit the placements. -/
structure Wf (pls : List Placement) (g : Groups) : Prop where
  some_ : ∀ i p, pls[i]? = some p → p.text = true → ∃ k, k < g.count ∧ g.of i = some k
  last : ∀ k, k < g.count → ∃ p, pls[(g.at_ k).last]? = some p ∧ p.text = true ∧ g.of (g.at_ k).last = some k

/-- Same shape: nothing but addresses and entries changed. -/
structure Same (g g' : Groups) : Prop where
  count : g'.count = g.count
  of : g'.of = g.of
  last : ∀ k, (g'.at_ k).last = (g.at_ k).last

theorem Same.refl (g : Groups) : Same g g := ⟨rfl, rfl, fun _ => rfl⟩
theorem Same.trans {a b c : Groups} (h : Same a b) (h' : Same b c) : Same a c :=
  ⟨h'.count.trans h.count, h'.of.trans h.of, fun k => (h'.last k).trans (h.last k)⟩

theorem Wf.same {pls : List Placement} {g g' : Groups} (w : Wf pls g) (h : Same g g') : Wf pls g' := by
  constructor
  · intro i p h1 h2
    obtain ⟨k, h3, h4⟩ := w.some_ i p h1 h2
    exact ⟨k, by rw [h.count]; exact h3, by rw [h.of]; exact h4⟩
  · intro k hk
    rw [h.count] at hk
    rw [h.last, h.of]
    exact w.last k hk

/-- Before placement `i`. -/
structure Pre (pls : List Placement) (i : Nat) (g : Groups) : Prop where
  some_ : ∀ j p, j < i → pls[j]? = some p → p.text = true → ∃ k, k < g.count ∧ g.of j = some k
  last : ∀ k, k < g.count → (g.at_ k).last < i ∧ ∃ p, pls[(g.at_ k).last]? = some p ∧ p.text = true ∧ g.of (g.at_ k).last = some k
  empty : ∀ k, k < g.count → (g.at_ k).entries = []

theorem groupAppend_some {g g' : Groups} {start i : Nat} (h : groupAppend g start i = some g') :
    g'.count = g.count + 1 ∧ g'.at_ = put g.at_ g.count ⟨start, start, start, i, i, []⟩ ∧ g'.of = g.of := by
  unfold groupAppend at h
  split at h
  · cases h
  · have := Option.some.inj h
    subst this
    exact ⟨rfl, rfl, rfl⟩

theorem pre_step {pls : List Placement} {i : Nat} {p : Placement} {start : Nat} {g g' : Groups} (hp : pls[i]? = some p)
    (w : Pre pls i g) (h : buildStep i p start g = some g') : Pre pls (i + 1) g' := by
  unfold buildStep at h
  split at h
  · rename_i ht
    have := Option.some.inj h
    subst this
    constructor
    · intro j q hj hq hqt
      rcases Nat.lt_or_ge j i with hlt | hge
      · obtain ⟨k, h1, h2⟩ := w.some_ j q hlt hq hqt
        exact ⟨k, h1, by simp only [put]; rw [if_neg (by omega)]; exact h2⟩
      · have : j = i := by omega
        subst this
        rw [hp] at hq
        cases hq
        simp [hqt] at ht
    · intro k hk
      obtain ⟨h1, h2⟩ := w.last k hk
      refine ⟨by simp only; omega, ?_⟩
      simp only [put]
      rw [if_neg (by omega)]
      exact h2
    · exact w.empty
  · rename_i ht
    have ht : p.text = true := by simpa using ht
    simp only [Option.bind_eq_bind, Option.bind_eq_some_iff] at h
    obtain ⟨fresh, hfresh, g1, hg1, stop, hstop, h⟩ := h
    have := Option.some.inj h
    subst this
    have key : 0 < g1.count ∧ g1.of = g.of ∧ (∀ k, k < g1.count → (g1.at_ k).entries = []) ∧
        (∀ k, k < g1.count - 1 → k < g.count ∧ g1.at_ k = g.at_ k) ∧ (∀ k, k < g.count → k < g1.count) := by
      split at hg1
      · obtain ⟨e1, e2, e3⟩ := groupAppend_some hg1
        refine ⟨by omega, e3, ?_, ?_, by intro k hk; omega⟩
        · intro k hk
          rw [e2]
          rcases Nat.lt_or_ge k g.count with h1 | h1
          · rw [put_other _ _ (by omega)]
            exact w.empty k h1
          · rw [show k = g.count from by omega, put_same]
        · intro k hk
          refine ⟨by omega, ?_⟩
          rw [e2, put_other _ _ (by omega)]
      · have := Option.some.inj hg1
        subst this
        rename_i hf
        refine ⟨?_, rfl, w.empty, fun k hk => ⟨by omega, rfl⟩, fun k hk => hk⟩
        apply Nat.pos_of_ne_zero
        intro h0
        rw [if_pos h0] at hfresh
        cases hfresh
        simp at hf
    obtain ⟨k0, k1, k2, k3, k4⟩ := key
    constructor
    · intro j q hj hq hqt
      rcases Nat.lt_or_ge j i with hlt | hge
      · obtain ⟨k, h1, h2⟩ := w.some_ j q hlt hq hqt
        refine ⟨k, k4 k h1, ?_⟩
        simp only
        rw [put_other _ _ (by omega), k1]
        exact h2
      · have : j = i := by omega
        subst this
        exact ⟨g1.count - 1, by simp only; omega, put_same ..⟩
    · intro k hk
      simp only at hk ⊢
      rcases Nat.lt_or_ge k (g1.count - 1) with hlt | hge
      · obtain ⟨h1, h2⟩ := k3 k hlt
        rw [put_other _ _ (by omega), h2]
        obtain ⟨h3, h4⟩ := w.last k h1
        refine ⟨by omega, ?_⟩
        rw [put_other _ _ (by omega), k1]
        exact h4
      · have : k = g1.count - 1 := by omega
        subst this
        rw [put_same]
        refine ⟨by simp only; omega, p, hp, ht, ?_⟩
        simp only
        rw [put_same]
    · intro k hk
      simp only at hk ⊢
      rcases Nat.lt_or_ge k (g1.count - 1) with hlt | hge
      · rw [put_other _ _ (by omega)]
        exact k2 k hk
      · have : k = g1.count - 1 := by omega
        subst this
        rw [put_same]
        exact k2 _ hk

theorem pre_loop {pls : List Placement} (offset : Nat → Nat) : ∀ (ps : List Placement) (i : Nat) (g g' : Groups), pls.drop i = ps →
    Pre pls i g → buildLoop offset i ps g = some g' → Pre pls (i + ps.length) g' := by
  intro ps
  induction ps with
  | nil =>
    intro i g g' _ w h
    simp only [buildLoop] at h
    cases h
    exact w
  | cons p ps ih =>
    intro i g g' hd w h
    simp only [buildLoop, Option.bind_eq_some_iff] at h
    obtain ⟨g1, h1, h2⟩ := h
    have hp : pls[i]? = some p := by
      have := congrArg (fun l => l[0]?) hd
      simpa [List.getElem?_drop] using this
    have hd' : pls.drop (i + 1) = ps := by
      rw [← List.drop_drop, hd]
      rfl
    have := ih (i + 1) g1 g' hd' (pre_step hp w h1) h2
    rw [show i + (p :: ps).length = i + 1 + ps.length from by simp only [List.length_cons]; omega]
    exact this

theorem wf_build {inp : Input} {g : Groups} (h : buildGroups inp = some g) :
    Wf inp.placements g ∧ ∀ k, k < g.count → (g.at_ k).entries = [] := by
  have := pre_loop inp.offset inp.placements 0 _ g rfl ⟨by intro j p h; omega, by intro k h; exact absurd h (Nat.not_lt_zero _),
    by intro k h; exact absurd h (Nat.not_lt_zero _)⟩ h
  refine ⟨⟨?_, fun k hk => (this.last k hk).2⟩, this.empty⟩
  intro i p hp ht
  refine this.some_ i p ?_ hp ht
  have := (List.getElem?_eq_some_iff.mp hp).1
  omega

/-! ### Regions -/

/-- What the code section consists of. -/
inductive Region | sec (i : Nat) | isl (k : Nat)
deriving DecidableEq

/-- Where a region starts and its size. -/
def Region.lo (off : Nat → Nat) (g : Groups) : Region → Nat
  | .sec i => off i
  | .isl k => (g.at_ k).island

def Region.size (pls : List Placement) (g : Groups) : Region → Nat
  | .sec i => ((pls[i]?).map Placement.size).getD 0
  | .isl k => (g.at_ k).entries.length * 12

/-- Regions from placement `i` on. -/
def Region.From (pls : List Placement) (g : Groups) (i : Nat) : Region → Prop
  | .sec j => i ≤ j ∧ ∃ p, pls[j]? = some p ∧ p.text = true
  | .isl k => k < g.count ∧ i ≤ (g.at_ k).last

/-- Laid out from `c` to `c'` without overlap. -/
structure Laid (pls : List Placement) (off : Nat → Nat) (g : Groups) (i c c' : Nat) : Prop where
  le : c ≤ c'
  in_ : ∀ r : Region, r.From pls g i → c ≤ r.lo off g ∧ r.lo off g + r.size pls g ≤ c'
  apart : ∀ r r' : Region, r.From pls g i → r'.From pls g i → r ≠ r' →
    r.lo off g + r.size pls g ≤ r'.lo off g ∨ r'.lo off g + r'.size pls g ≤ r.lo off g

structure Kept (g g' : Groups) : Prop extends Same g g' where
  entries : ∀ k, (g'.at_ k).entries = (g.at_ k).entries

structure StepOut (pls : List Placement) (i : Nat) (p : Placement) (s s' : LaySt) : Prop where
  kept : Kept s.groups s'.groups
  cursor : s.cursor ≤ s'.cursor
  off : ∀ j, j ≠ i → s'.offset j = s.offset j
  here : p.text = true → s.cursor ≤ s'.offset i ∧ s'.offset i + p.size ≤ s'.cursor ∧ s'.offset i % (if p.align = 0 then 1 else p.align) = 0
  isl : ∀ k, k < s.groups.count → (s.groups.at_ k).last ≠ i → (s'.groups.at_ k).island = (s.groups.at_ k).island
  here' : ∀ k, k < s.groups.count → (s.groups.at_ k).last = i →
    s'.offset i + p.size ≤ (s'.groups.at_ k).island ∧ (s'.groups.at_ k).island + (s.groups.at_ k).entries.length * 12 ≤ s'.cursor ∧
      ((s.groups.at_ k).entries ≠ [] → (s'.groups.at_ k).island % 4 = 0)

theorem layStep_out {pls : List Placement} {i : Nat} {p : Placement} {s s' : LaySt} (w : Wf pls s.groups) (hp : pls[i]? = some p)
    (h : layStep i p s = some s') : StepOut pls i p s s' := by
  unfold layStep at h
  split at h
  · rename_i ht
    have := Option.some.inj h
    subst this
    refine ⟨⟨Same.refl _, fun _ => rfl⟩, Nat.le_refl _, fun _ _ => rfl, by intro h; simp [h] at ht, fun _ _ _ => rfl, ?_⟩
    intro k hk hl
    obtain ⟨q, h1, h2, _⟩ := w.last k hk
    rw [hl, hp] at h1
    cases h1
    simp [h2] at ht
  · split at h
    · cases h
    · rename_i g hg
      split at h
      · cases h
      · rename_i hgc
        simp only [Option.bind_eq_some_iff] at h
        obtain ⟨a, ha, c, hc, h⟩ := h
        obtain ⟨a1, a2, a3⟩ := alignUp_some ha
        have c1 := addOverflow_some hc
        have uniq : ∀ k, k < s.groups.count → (s.groups.at_ k).last = i → k = g := by
          intro k hk hl
          obtain ⟨q, _, _, h3⟩ := w.last k hk
          rw [hl, hg] at h3
          exact (Option.some.inj h3).symm
        split at h
        · rename_i hne
          have := Option.some.inj h
          subst this
          refine ⟨⟨⟨rfl, rfl, ?_⟩, ?_⟩, by simp only; omega, ?_, ?_, ?_, ?_⟩
          · intro k
            simp only [put]
            split <;> simp_all
          · intro k
            simp only [put]
            split <;> simp_all
          · intro j hj
            exact put_other _ _ hj
          · intro _
            simp only [put_same]
            exact ⟨a1, by omega, a2⟩
          · intro k hk hl
            simp only [put]
            split <;> simp_all
          · intro k hk hl
            have := uniq k hk hl
            subst this
            exact absurd hl.symm hne
        · rename_i he
          have he : i = (s.groups.at_ g).last := by simpa using he
          simp only [Option.bind_eq_some_iff] at h
          obtain ⟨isl, hi, c', hc', h⟩ := h
          have := Option.some.inj h
          subst this
          have c2 := addOverflow_some hc'
          have hi' : c ≤ isl ∧ ((s.groups.at_ g).entries ≠ [] → isl % 4 = 0) := by
            split at hi
            · obtain ⟨b1, b2, _⟩ := alignUp_some hi
              exact ⟨b1, fun _ => by simpa using b2⟩
            · rename_i h0
              have := Option.some.inj hi
              subst this
              refine ⟨Nat.le_refl _, fun h => ?_⟩
              exfalso
              apply h
              apply List.eq_nil_of_length_eq_zero
              simpa using h0
          simp only [thunkSize] at c2
          refine ⟨⟨⟨rfl, rfl, ?_⟩, ?_⟩, by simp only; omega, ?_, ?_, ?_, ?_⟩
          · intro k
            simp only [put]
            split <;> simp_all
          · intro k
            simp only [put]
            split <;> simp_all
          · intro j hj
            exact put_other _ _ hj
          · intro _
            simp only [put_same]
            exact ⟨a1, by omega, a2⟩
          · intro k hk hl
            simp only
            rw [put_other]
            intro h
            subst h
            exact hl he.symm
          · intro k hk hl
            have := uniq k hk hl
            subst this
            simp only [put_same]
            exact ⟨by omega, by omega, hi'.2⟩

structure LoopOut (pls : List Placement) (i : Nat) (s s' : LaySt) : Prop where
  kept : Kept s.groups s'.groups
  off : ∀ j, j < i ∨ (∃ p, pls[j]? = some p ∧ p.text = false) → s'.offset j = s.offset j
  isl : ∀ k, k < s.groups.count → (s.groups.at_ k).last < i → (s'.groups.at_ k).island = (s.groups.at_ k).island
  laid : Laid pls s'.offset s'.groups i s.cursor s'.cursor
  align : ∀ j p, i ≤ j → pls[j]? = some p → p.text = true → s'.offset j % (if p.align = 0 then 1 else p.align) = 0
  aligned : ∀ k, k < s.groups.count → i ≤ (s.groups.at_ k).last → (s.groups.at_ k).entries ≠ [] → (s'.groups.at_ k).island % 4 = 0

theorem layStep_text {i : Nat} {p : Placement} {s s' : LaySt} (h : layStep i p s = some s') (ht : p.text = false) : s' = s := by
  unfold layStep at h
  rw [if_pos (by simp [ht])] at h
  exact (Option.some.inj h).symm

theorem layLoop_out {pls : List Placement} : ∀ (ps : List Placement) (i : Nat) (s s' : LaySt), pls.drop i = ps → Wf pls s.groups →
    layLoop i ps s = some s' → LoopOut pls i s s' := by
  intro ps
  induction ps with
  | nil =>
    intro i s s' hd w h
    simp only [layLoop] at h
    cases h
    have hlen : pls.length ≤ i := by simpa using hd
    have none_ : ∀ r : Region, ¬ r.From pls s.groups i := by
      intro r hr
      cases r with
      | sec j =>
        obtain ⟨h1, p, h2, _⟩ := hr
        have := (List.getElem?_eq_some_iff.mp h2).1
        omega
      | isl k =>
        obtain ⟨h1, h2⟩ := hr
        obtain ⟨p, h3, _⟩ := w.last k h1
        have := (List.getElem?_eq_some_iff.mp h3).1
        omega
    refine ⟨⟨Same.refl _, fun _ => rfl⟩, fun _ _ => rfl, fun _ _ _ => rfl, ⟨Nat.le_refl _, fun r h => absurd h (none_ r), fun r _ h => absurd h (none_ r)⟩,
      ?_, ?_⟩
    · intro j p hj hp ht
      exact absurd ⟨hj, p, hp, ht⟩ (none_ (.sec j))
    · intro k hk hj _
      exact absurd ⟨hk, hj⟩ (none_ (.isl k))
  | cons p ps ih =>
    intro i s s' hd w h
    simp only [layLoop, Option.bind_eq_some_iff] at h
    obtain ⟨s1, h1, h2⟩ := h
    have hp : pls[i]? = some p := by
      have := congrArg (fun l => l[0]?) hd
      simpa [List.getElem?_drop] using this
    have hd' : pls.drop (i + 1) = ps := by
      rw [← List.drop_drop, hd]
      rfl
    have o1 := layStep_out w hp h1
    have o2 := ih (i + 1) s1 s' hd' (w.same o1.kept.toSame) h2
    have cnt := o1.kept.count
    have cnt2 := o2.kept.count
    have lst := o1.kept.last
    have lst2 := o2.kept.last
    have ent := o1.kept.entries
    have ent2 := o2.kept.entries
    have offi : s'.offset i = s1.offset i := o2.off i (.inl (by omega))
    -- the regions of this placement
    have head : ∀ r : Region, r.From pls s'.groups i → r.From pls s'.groups (i + 1) ∨
        (s.cursor ≤ r.lo s'.offset s'.groups ∧ r.lo s'.offset s'.groups + r.size pls s'.groups ≤ s1.cursor) := by
      intro r hr
      cases r with
      | sec j =>
        obtain ⟨hj, q, hq, hqt⟩ := hr
        rcases Nat.lt_or_ge i j with hlt | hge
        · exact .inl ⟨hlt, q, hq, hqt⟩
        · have : j = i := by omega
          subst this
          rw [hp] at hq
          cases hq
          have := o1.here hqt
          right
          simp only [Region.lo, Region.size, hp, Option.map_some, Option.getD_some]
          rw [offi]
          exact ⟨this.1, this.2.1⟩
      | isl k =>
        obtain ⟨hk, hl⟩ := hr
        rcases Nat.lt_or_ge i (s'.groups.at_ k).last with hlt | hge
        · exact .inl ⟨hk, hlt⟩
        · right
          have hk' : k < s.groups.count := by omega
          have hl' : (s.groups.at_ k).last = i := by
            have a := lst k
            have b := lst2 k
            omega
          have hh := o1.here' k hk' hl'
          have hi := o2.isl k (by omega) (by have a := lst k; omega)
          obtain ⟨q, hq, hqt, _⟩ := w.last k hk'
          rw [hl', hp] at hq
          cases hq
          have := o1.here hqt
          simp only [Region.lo, Region.size]
          rw [hi, ent2 k, ent k]
          exact ⟨by omega, hh.2.1⟩
    refine ⟨⟨o1.kept.toSame.trans o2.kept.toSame, fun k => (ent2 k).trans (ent k)⟩, ?_, ?_, ?_, ?_, ?_⟩
    · intro j hj
      rcases hj with hj | ⟨q, hq, hqt⟩
      · rw [o2.off j (.inl (by omega)), o1.off j (by omega)]
      · rw [o2.off j (.inr ⟨q, hq, hqt⟩)]
        by_cases hji : j = i
        · subst hji
          rw [hp] at hq
          cases hq
          rw [layStep_text h1 hqt]
        · exact o1.off j hji
    · intro k hk hl
      rw [o2.isl k (by omega) (by have a := lst k; omega), o1.isl k hk (by omega)]
    · refine ⟨Nat.le_trans o1.cursor o2.laid.le, ?_, ?_⟩
      · intro r hr
        rcases head r hr with hr' | ⟨h3, h4⟩
        · have := o2.laid.in_ r hr'
          exact ⟨Nat.le_trans o1.cursor this.1, this.2⟩
        · exact ⟨h3, Nat.le_trans h4 o2.laid.le⟩
      · intro r r' hr hr' hne
        rcases head r hr with h3 | ⟨h3, h4⟩
        · rcases head r' hr' with h5 | ⟨h5, h6⟩
          · exact o2.laid.apart r r' h3 h5 hne
          · right
            exact Nat.le_trans h6 (o2.laid.in_ r h3).1
        · rcases head r' hr' with h5 | ⟨h5, h6⟩
          · left
            exact Nat.le_trans h4 (o2.laid.in_ r' h5).1
          · -- both belong to this placement
            have sec : ∀ (q : Region) (j : Nat), q = .sec j → q.From pls s'.groups i →
                q.lo s'.offset s'.groups + q.size pls s'.groups ≤ s1.cursor → (q.From pls s'.groups (i + 1)) ∨ j = i := by
              intro q j e hq _
              subst e
              obtain ⟨hj, x, hx, hxt⟩ := hq
              rcases Nat.lt_or_ge i j with hlt | hge
              · exact .inl ⟨hlt, x, hx, hxt⟩
              · exact .inr (by omega)
            have isl : ∀ (q : Region) (k : Nat), q = .isl k → q.From pls s'.groups i → (q.From pls s'.groups (i + 1)) ∨
                (s'.groups.of i = some k ∧ s1.offset i + p.size ≤ q.lo s'.offset s'.groups) := by
              intro q k e hq
              subst e
              obtain ⟨hk, hl⟩ := hq
              rcases Nat.lt_or_ge i (s'.groups.at_ k).last with hlt | hge
              · exact .inl ⟨hk, hlt⟩
              · right
                have a := lst k
                have b := lst2 k
                have hk' : k < s.groups.count := by omega
                have hl' : (s.groups.at_ k).last = i := by omega
                obtain ⟨x, _, _, hx⟩ := w.last k hk'
                rw [hl'] at hx
                refine ⟨by rw [o2.kept.of, o1.kept.of]; exact hx, ?_⟩
                simp only [Region.lo]
                rw [o2.isl k (by omega) (by omega)]
                exact (o1.here' k hk' hl').1
            have hsz : ∀ j, j = i → (Region.sec j).lo s'.offset s'.groups + (Region.sec j).size pls s'.groups = s1.offset i + p.size := by
              intro j hj
              subst hj
              simp only [Region.lo, Region.size, hp, Option.map_some, Option.getD_some, offi]
            have late : ∀ q q' : Region, q.From pls s'.groups (i + 1) → q'.lo s'.offset s'.groups + q'.size pls s'.groups ≤ s1.cursor →
                q'.lo s'.offset s'.groups + q'.size pls s'.groups ≤ q.lo s'.offset s'.groups := by
              intro q q' hq hq'
              exact Nat.le_trans hq' (o2.laid.in_ q hq).1
            cases r with
            | sec j =>
              rcases sec _ j rfl hr h4 with hl | hj
              · exact .inr (late _ _ hl h6)
              · cases r' with
                | sec j' =>
                  rcases sec _ j' rfl hr' h6 with hl | hj'
                  · exact .inl (late _ _ hl h4)
                  · exact absurd (by rw [hj, hj']) hne
                | isl k' =>
                  rcases isl _ k' rfl hr' with hl | ⟨_, hj'⟩
                  · exact .inl (late _ _ hl h4)
                  · left
                    rw [hsz j hj]
                    exact hj'
            | isl k =>
              rcases isl _ k rfl hr with hl | ⟨hk, hj⟩
              · exact .inr (late _ _ hl h6)
              · cases r' with
                | sec j' =>
                  rcases sec _ j' rfl hr' h6 with hl | hj'
                  · exact .inl (late _ _ hl h4)
                  · right
                    rw [hsz j' hj']
                    exact hj
                | isl k' =>
                  rcases isl _ k' rfl hr' with hl | ⟨hk', _⟩
                  · exact .inl (late _ _ hl h4)
                  · rw [hk] at hk'
                    exact absurd (by rw [Option.some.inj hk']) hne
    · intro j q hj hq hqt
      by_cases hji : j = i
      · subst hji
        rw [hp] at hq
        cases hq
        rw [offi]
        exact (o1.here hqt).2.2
      · exact o2.align j q (by omega) hq hqt
    · intro k hk hl hne
      rcases Nat.lt_or_ge i (s.groups.at_ k).last with hlt | hge
      · exact o2.aligned k (by omega) (by have a := lst k; omega) (by rw [ent k]; exact hne)
      · have hl' : (s.groups.at_ k).last = i := by omega
        rw [o2.isl k (by omega) (by have a := lst k; omega)]
        exact (o1.here' k hk hl').2.2 hne

end Nature.Reloc.Thunk
