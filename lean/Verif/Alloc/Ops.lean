import Verif.Alloc.Inv
/-
Spilling and assigning keep the invariant.
-/
namespace Nature.Alloc
open Nature.Ranges (Range Covers Sorted NonEmpty splitRanges)

theorem spillSlot_keep {s s' : St} {i : Nat} (h : spillSlot s i = some s') :
    (∀ j, j ≠ i → s'.heap j = s.heap j) ∧ (s'.heap i).spilled = true := by
  rw [spillSlot] at h
  simp only at h
  split at h
  · cases h
    exact ⟨fun j e => by simp [St.set, e], by simp [St.set]⟩
  · split at h
    · cases h
      exact ⟨fun j e => by simp [St.set, e], by simp [St.set]⟩
    · split at h
      · cases h
        exact ⟨fun j e => by simp [St.set, e], by simp [St.set]⟩
      · cases h

theorem splitAt_keep {F : Func} {bs : List Blk} {s s' : St} {i c : Nat} {pos : Int} (g : Geo F s)
    (h1 : F.cfg.nregs ≤ i) (h2 : i < s.next) (h : splitAt bs s i pos = some (s', c)) :
    ∀ j, j < s.next → (s'.heap j).assigned = (s.heap j).assigned ∧
      (s'.heap j).spilled = (s.heap j).spilled := by
  have := g.root_lt h1 h2
  have := g.nle
  obtain ⟨rfl, _, _, _, _, _, _, _, _, _, _, _, _, hj⟩ := splitAt_spec h h2 (by omega)
  intro j hlt
  rw [hj j (by omega)]
  exact ⟨rfl, rfl⟩

/-- What `spillRest` promises about the part it spills and the others. -/
structure Rest (F : Func) (P : Int) (ex : List Nat) (s s' : St) (c : Nat) : Prop where
  inv : Inv F P ex s'
  step : Step s s'
  asg : (s'.heap c).assigned = 0
  spl : (s'.heap c).spilled = true
  keep : ∀ j, j < s.next → j ≠ c → (s'.heap j).assigned = (s.heap j).assigned ∧
    (s'.heap j).spilled = (s.heap j).spilled

theorem spillRest_inv {F : Func} (hF : F.Ok) {P : Int} {ex : List Nat} {bs : List Blk} {s s' : St}
    {c : Nat} (I : Inv F P (c :: ex) s) (h1 : F.cfg.nregs ≤ c) (h2 : c < s.next) (hp : ¬ Pre F c)
    (hq : ∀ u p, firstKind .must (s.heap c).uses = some u →
      optimalSplit bs (s.heap c) u.pos = some p → lo (s.heap c).ranges < p → P ≤ p)
    (h : spillRest bs s c = some s') : Rest F P ex s s' c := by
  rw [spillRest] at h
  split at h
  · rename_i hn
    obtain ⟨a, b, e⟩ := spillSlot_inv hF I h1 h2 hp (firstKind_none hn) h
    obtain ⟨k1, k2⟩ := spillSlot_keep h
    exact ⟨a, b, e, k2, fun j _ hj => by rw [k1 j hj]; exact ⟨rfl, rfl⟩⟩
  · rename_i u hu
    split at h
    · cases h
    · rename_i p hpp
      split at h
      · cases h
      · rename_i hlt
        split at h
        · cases h
        · rename_i s2 d hs
          obtain ⟨I2, S2, C⟩ := splitAt_inv hF I h1 h2 hs
          have hd := C.c_eq
          have hnx := C.next
          have hnle := I.geo.nle
          have hP := hq u p hu hpp C.frm
          have J : Inv F P (c :: ex) (enqueue s2 d) := by
            apply enqueue_inv I2
            · omega
            · omega
            · exact C.casg
            · have := C.cfrm; omega
            · rw [C.que]
              intro hm
              have := (I.q d hm).2.1
              omega
          have hm : ∀ w ∈ ((enqueue s2 d).heap c).uses, w.kind ≠ .must := by
            intro w hw
            have hw' : w ∈ (splitUses p (s.heap c).uses).1 := by rw [← C.uses]; exact hw
            have := splitUses_left w hw'
            have hwm : w ∈ (s.heap c).uses := by
              rw [← splitUses_append p (s.heap c).uses]; exact List.mem_append_left _ hw'
            exact (firstKind_some (I.geo.usesSorted hF h1 h2) hu).2.2 w hwm (by omega)
          obtain ⟨a, b, e⟩ := spillSlot_inv hF J h1 (by simp only [enqueue]; omega) hp hm h
          obtain ⟨k1, k2⟩ := spillSlot_keep h
          refine ⟨a, (enqueue_step S2 (by omega)).trans b, e, k2, ?_⟩
          intro j hj hjc
          rw [k1 j hjc]
          exact splitAt_keep I.geo h1 h2 hs j hj

/-- What `spillInterval` promises. -/
structure Spilt (F : Func) (P : Int) (ex : List Nat) (s s' : St) (i : Nat) (before : Int) : Prop where
  inv : Inv F P (i :: ex) s'
  step : Step s s'
  res : (lo (s.heap i).ranges < before ∧ (∀ p, Covers (s'.heap i).ranges p → p < before) ∧
      (∀ u ∈ (s'.heap i).uses, u.pos < before) ∧ (s'.heap i).assigned = (s.heap i).assigned ∧
      (s'.heap i).spilled = (s.heap i).spilled) ∨
    (before ≤ lo (s.heap i).ranges ∧ (s'.heap i).assigned = 0 ∧ (s'.heap i).spilled = true ∧
      Inv F P ex s')

/-- The hypothesis under which a remainder that is queued again is not behind the walk. -/
def Ahead (F : Func) (P : Int) (s : St) (i : Nat) (before : Int) : Prop :=
  P ≤ lo (s.heap i).ranges ∨ (before = P ∧ NoHoist F ∧ (s.heap i).constFloat = false)

theorem spillInterval_inv {F : Func} (hF : F.Ok) {P : Int} {ex : List Nat} {s s' : St} {i : Nat}
    {before : Int} (I : Inv F P (i :: ex) s) (h1 : F.cfg.nregs ≤ i) (h2 : i < s.next)
    (hp : ¬ Pre F i) (hA : Ahead F P s i before)
    (h : spillInterval F.cfg.blocks s i before = some s') : Spilt F P ex s s' i before := by
  have hnle := I.geo.nle
  rw [spillInterval, frm_eq] at h
  split at h
  · rename_i hb
    rw [splitBefore] at h
    split at h
    · cases h
    · rename_i s1 c hs
      split at hs
      · cases hs
      · rename_i p1 hp1
        obtain ⟨I1, S1, C⟩ := splitAt_inv hF I h1 h2 hs
        have hc := C.c_eq
        have hnx := C.next
        have hlt := optimalSplit_lt hF.numbered hp1
        have R : Rest F P (i :: ex) s1 s' c := by
          apply spillRest_inv hF I1 (by omega) (by omega) _ _ h
          · intro hpre; have := pre_lt hpre; omega
          · intro u p2 hu hp2 hlo
            have hfr := C.frm
            have hcf := C.cfrm
            rcases hA with hA | ⟨rfl, hno, hcf0⟩
            · omega
            · -- a use after the first split has no gap
              have husort := I.geo.usesSorted hF h1 h2
              have hum : u ∈ (s1.heap c).uses :=
                (firstKind_some (I1.geo.usesSorted hF (by omega) (by omega)) hu).1
              rw [C.cuses] at hum
              have hup := splitUses_right husort u hum
              have hui : u ∈ (s.heap i).uses := by
                rw [← splitUses_append p1 (s.heap i).uses]; exact List.mem_append_right _ hum
              obtain ⟨V, hV, hVu, hVc⟩ := I.geo.use h1 h2 hui
              have hVok := hF.vars V hV
              obtain ⟨_, n1, z1⟩ := I.geo.part h1 h2
              have hlov := lo_le hVok.sorted (hVc _ (cov_lo n1 z1))
              have hgap : NoGap F.cfg.blocks u.pos := by
                rcases hVok.uses u hVu with ⟨r, hr, e⟩ | ⟨_, q⟩
                · exfalso
                  cases hrs : V.ranges with
                  | nil => rw [hrs] at hr; cases hr
                  | cons x xs =>
                    rw [hrs] at hr hlov
                    cases hr
                    change r.lo ≤ _ at hlov
                    omega
                · exact q
              have hcc : (s1.heap c).constFloat = false := by
                obtain ⟨_, _, _, _, q⟩ := I1.geo.kid c (by omega) (by omega)
                exact q
              exact second_split hF.numbered hno hcf0 hcc hp1 hgap hp2 (by omega)
        obtain ⟨k1, k2⟩ := splitAt_keep I.geo h1 h2 hs i h2
        obtain ⟨k3, k4⟩ := R.keep i (by omega) (by omega)
        refine ⟨R.inv, S1.trans R.step, .inl ⟨hb, ?_, ?_, by rw [k3, k1], by rw [k4, k2]⟩⟩
        · intro p hpc
          have := C.left p (R.step.cov i (by omega) p hpc)
          omega
        · intro u hu
          have hu1 := R.step.use i (by omega) u hu
          rw [C.uses] at hu1
          have := splitUses_left u hu1
          omega
  · rename_i hb
    have R : Rest F P ex s s' i := by
      apply spillRest_inv hF I h1 h2 hp _ h
      intro u p _ _ hlo
      rcases hA with hA | ⟨rfl, _, _⟩ <;> omega
    exact ⟨R.inv.add i, R.step, .inr ⟨by omega, R.asg, R.spl, R.inv⟩⟩

/-! ### assign -/

theorem setAssigned_inv {F : Func} {P : Int} {ex : List Nat} {s : St} {i r : Nat}
    (I : Inv F P (i :: ex) s) (h1 : F.cfg.nregs ≤ i) (h2 : i < s.next)
    (hq : i ∉ s.unhandled) (hr1 : 1 ≤ r) (hr2 : r < F.cfg.nregs) (hrc : F.cfg.cls r = (s.heap i).cls)
    (hd : ∀ j, j < s.next → j ≠ i → (s.heap j).assigned = r → ¬ Pre F j →
      ∀ p, Covers (s.heap i).ranges p → ¬ Covers (s.heap j).ranges p) :
    Inv F P (i :: ex) (s.set i { s.heap i with assigned := r }) := by
  have hs : ∀ j, j ≠ i → (s.set i { s.heap i with assigned := r }).heap j = s.heap j := by
    intro j e; simp [St.set, e]
  have hsi : (s.set i { s.heap i with assigned := r }).heap i = { s.heap i with assigned := r } := by
    simp [St.set]
  have fld : ∀ j, ∃ a, (s.set i { s.heap i with assigned := r }).heap j =
      { s.heap j with assigned := a } := by
    intro j
    by_cases e : j = i
    · subst e; exact ⟨_, hsi⟩
    · exact ⟨_, hs j e⟩
  have rg : ∀ j, ((s.set i { s.heap i with assigned := r }).heap j).ranges =
      (s.heap j).ranges := by intro j; obtain ⟨a, e⟩ := fld j; rw [e]
  have us : ∀ j, ((s.set i { s.heap i with assigned := r }).heap j).uses =
      (s.heap j).uses := by intro j; obtain ⟨a, e⟩ := fld j; rw [e]
  have sz : ∀ j, ((s.set i { s.heap i with assigned := r }).heap j).size =
      (s.heap j).size := by intro j; obtain ⟨a, e⟩ := fld j; rw [e]
  have ft : ∀ j, ((s.set i { s.heap i with assigned := r }).heap j).constFloat =
      (s.heap j).constFloat := by intro j; obtain ⟨a, e⟩ := fld j; rw [e]
  have sp : ∀ j, ((s.set i { s.heap i with assigned := r }).heap j).spilled =
      (s.heap j).spilled := by intro j; obtain ⟨a, e⟩ := fld j; rw [e]
  have cl : ∀ j, ((s.set i { s.heap i with assigned := r }).heap j).cls =
      (s.heap j).cls := by intro j; obtain ⟨a, e⟩ := fld j; rw [e]
  have rt : ∀ j, rootOf (s.set i { s.heap i with assigned := r }) j = rootOf s j := by
    intro j; obtain ⟨a, e⟩ := fld j; simp only [rootOf]; rw [e]
  have ne : ∀ j, j ∉ i :: ex → j ≠ i := by rintro j h rfl; exact h (List.mem_cons_self ..)
  refine ⟨?_, ?_, ?_, ?_, ?_, ?_, ?_, ?_, ?_, ?_, ?_, I.qn, ?_⟩
  · apply I.geo.same
    · rfl
    · rfl
    · rfl
    · intro j hj; exact hs j (by omega)
    · intro j; obtain ⟨a, e⟩ := fld j; rw [e]; simp
  · have S := I.slot
    refine ⟨S.grow, ?_, ?_, ?_⟩
    · intro x; rw [sz]; exact S.slot x
    · intro x y; rw [sz, sz]; exact S.apart x y
    · intro x; rw [sp, rt, ft]; exact S.has x
  · intro x hx
    by_cases e : x = i
    · subst e; rw [hsi]; simp only; omega
    · rw [hs x e]; exact I.pre x hx
  · intro x; rw [sp, us]; exact I.must x
  · intro x a b c; rw [us, hs x (ne x c)]; exact I.stk x a b c
  · intro x a b c; rw [hs x (ne x c)]; exact I.stat x a b c
  · intro x a
    by_cases e : x = i
    · subst e; rw [hsi]; intro _ _; exact ⟨hr1, hr2, hrc⟩
    · rw [hs x e]; exact I.cls x a
  · intro x y a b c d e f g p
    rw [rg, rg]
    by_cases ex : x = i
    · subst ex
      rw [hsi, hs y (Ne.symm c)] at d
      exact hd y b (Ne.symm c) d.symm g p
    · by_cases ey : y = i
      · subst ey
        rw [hsi, hs x ex] at d
        exact fun h1 h2 => hd x a c d f p h2 h1
      · rw [hs x ex, hs y ey] at d
        rw [hs x ex] at e
        exact I.apart x y a b c d e f g p
  · intro x a c; rw [rg, hs x (ne x c)]; exact I.cover x a c
  · intro x a
    obtain ⟨b1, b2⟩ := I.lists x a
    exact ⟨b1, by rw [ft]; exact b2⟩
  · apply I.qs.imp
    intro a b hab
    rw [rg, rg]; exact hab
  · intro x hx
    obtain ⟨b1, b2, b3, b4⟩ := I.q x hx
    have e : x ≠ i := by rintro rfl; exact hq hx
    rw [hs x e]
    exact ⟨b1, b2, b3, b4⟩

theorem activate_inv {F : Func} {P : Int} {ex : List Nat} {s : St} {i : Nat}
    (I : Inv F P (i :: ex) s) (h1 : F.cfg.nregs ≤ i) (h2 : i < s.next) (hp : ¬ Pre F i)
    (hc : (s.heap i).constFloat = false)
    (hst : (s.heap i).assigned ≠ 0 ∨ (s.heap i).spilled = true)
    (hk : (s.heap i).assigned ≠ 0 → ∀ u ∈ (s.heap i).uses, u.kind ≠ .stack) :
    Inv F P ex (s.activate i) := by
  have J : Inv F P (i :: ex) (s.activate i) := by
    refine ⟨⟨I.geo.nle, I.geo.low, I.geo.free, I.geo.idx, I.geo.cnt, I.geo.root, I.geo.kid, I.geo.mvs⟩,
      ⟨I.slot.grow, I.slot.slot, I.slot.apart, I.slot.has⟩, I.pre, I.must, I.stk, I.stat, I.cls,
      I.apart, ?_, ?_, I.qs, I.qn, I.q⟩
    · intro x a b c d
      rcases I.cover x a b c d with q | q
      · exact .inl (List.mem_append_left _ q)
      · exact .inr q
    · intro x hx
      rcases hx with hx | hx
      · rcases List.mem_append.1 hx with hx | hx
        · exact I.lists x (.inl hx)
        · rw [List.mem_singleton] at hx
          subst hx
          exact ⟨h2, fun _ => ⟨hc, hp⟩⟩
      · exact I.lists x (.inr hx)
  apply J.drop
  · exact .inr hst
  · exact fun _ => hk
  · intro _ _; exact .inl (List.mem_append_right _ (by simp))

/-- `assign_interval` and the move to the list of active intervals. -/
theorem assign_inv {F : Func} (hF : F.Ok) {P : Int} {ex : List Nat} {s s' : St} {i r : Nat}
    (I : Inv F P (i :: ex) s) (h1 : F.cfg.nregs ≤ i) (h2 : i < s.next) (hp : ¬ Pre F i)
    (hc : (s.heap i).constFloat = false) (hP : P ≤ lo (s.heap i).ranges)
    (hq : i ∉ s.unhandled) (hr1 : 1 ≤ r) (hr2 : r < F.cfg.nregs) (hrc : F.cfg.cls r = (s.heap i).cls)
    (hd : ∀ j, j < s.next → j ≠ i → (s.heap j).assigned = r → ¬ Pre F j →
      ∀ p, Covers (s.heap i).ranges p → ¬ Covers (s.heap j).ranges p)
    (h : assignInterval F.cfg.blocks s i r = some s') : Inv F P ex (s'.activate i) := by
  rw [assignInterval, if_neg (by omega)] at h
  simp only at h
  have J := setAssigned_inv I h1 h2 hq hr1 hr2 hrc hd
  have hsi : (s.set i { s.heap i with assigned := r }).heap i = { s.heap i with assigned := r } := by
    simp [St.set]
  have husort := J.geo.usesSorted hF h1 h2
  split at h
  · rename_i hn
    cases h
    apply activate_inv J h1 h2 hp
    · rw [hsi]; exact hc
    · left; rw [hsi]; simp only; omega
    · intro _; exact firstKind_none hn
  · rename_i u hu
    have A := spillInterval_inv hF J h1 h2 hp (.inl (by rw [hsi]; exact hP)) h
    have hn := A.step.nx
    have h2' : i < (s.set i { s.heap i with assigned := r }).next := h2
    apply activate_inv A.inv h1 (by omega) hp
    · rw [A.step.flt i h2', hsi]; exact hc
    · rcases A.res with ⟨_, _, _, e, _⟩ | ⟨_, _, e, _⟩
      · left; rw [e, hsi]; simp only; omega
      · exact .inr e
    · intro ha w hw
      rcases A.res with ⟨_, _, e, _⟩ | ⟨_, e, _⟩
      · have hwm := A.step.use i h2' w hw
        exact (firstKind_some husort hu).2.2 w hwm (e w hw)
      · exact absurd e ha

end Nature.Alloc
