import Verif.Alloc.Choose
/-
The walk from its start to its end.
-/
namespace Nature.Alloc
open Nature.Ranges (Range Covers Sorted NonEmpty splitRanges)

/-! ### the lists -/

/-- Moving intervals between the lists. -/
theorem relist_inv {F : Func} {P : Int} {ex : List Nat} {s : St} {a b h : List Nat}
    (I : Inv F P ex s)
    (h1 : ∀ x, x ∈ s.active ∨ x ∈ s.inactive → x ∈ a ∨ x ∈ b ∨ hi (s.heap x).ranges ≤ P)
    (h2 : ∀ x, x ∈ a ∨ x ∈ b → x ∈ s.active ∨ x ∈ s.inactive) :
    Inv F P ex { s with active := a, inactive := b, handled := h } := by
  refine ⟨⟨I.geo.nle, I.geo.low, I.geo.free, I.geo.idx, I.geo.cnt, I.geo.root, I.geo.kid, I.geo.mvs⟩,
    ⟨I.slot.grow, I.slot.slot, I.slot.apart, I.slot.has⟩, I.pre, I.must, I.stk, I.stat, I.cls,
    I.apart, ?_, fun x hx => I.lists x (h2 x hx), I.qs, I.qn, I.q⟩
  intro i a1 a2 a3 a4
  have fin : i ∈ s.active ∨ i ∈ s.inactive →
      i ∈ a ∨ i ∈ b ∨ (s.heap i).ranges = [] ∨ hi (s.heap i).ranges ≤ P := by
    intro q
    rcases h1 i q with q | q | q
    · exact .inl q
    · exact .inr (.inl q)
    · exact .inr (.inr (.inr q))
  rcases I.cover i a1 a2 a3 a4 with q | q | q
  · exact fin (.inl q)
  · exact fin (.inr q)
  · exact .inr (.inr q)

theorem mem_erase_or {l : List Nat} {x j : Nat} (h : x ∈ l) : x ∈ l.erase j ∨ x = j := by
  by_cases e : x = j
  · exact .inr e
  · exact .inl ((List.mem_erase_of_ne e).2 h)

theorem handleActive_spec {at_ : Int} {js : List Nat} {s : St} :
    ∃ a b h, handleActive at_ js s = { s with active := a, inactive := b, handled := h } ∧
    (∀ x, x ∈ s.active ∨ x ∈ s.inactive → x ∈ a ∨ x ∈ b ∨ hi (s.heap x).ranges ≤ at_) ∧
    (∀ x, x ∈ a ∨ x ∈ b → x ∈ s.active ∨ x ∈ s.inactive ∨ x ∈ js) := by
  induction js generalizing s with
  | nil =>
    exact ⟨s.active, s.inactive, s.handled, rfl,
      fun x hx => hx.imp id .inl, fun x hx => hx.imp id .inl⟩
  | cons j js ih =>
    rw [handleActive, til_eq]
    split
    · split
      · rename_i hex
        obtain ⟨a, b, h, e, f, g⟩ := ih
          (s := { s with active := s.active.erase j, handled := s.handled ++ [j] })
        refine ⟨a, b, h, e, ?_, ?_⟩
        · intro x hx
          rcases hx with hx | hx
          · rcases mem_erase_or (j := j) hx with q | rfl
            · exact f x (.inl q)
            · exact .inr (.inr (by simpa using hex))
          · exact f x (.inr hx)
        · intro x hx
          rcases g x hx with q | q | q
          · exact .inl (List.mem_of_mem_erase q)
          · exact .inr (.inl q)
          · exact .inr (.inr (List.mem_cons_of_mem _ q))
      · obtain ⟨a, b, h, e, f, g⟩ := ih
          (s := { s with active := s.active.erase j, inactive := s.inactive ++ [j] })
        refine ⟨a, b, h, e, ?_, ?_⟩
        · intro x hx
          rcases hx with hx | hx
          · rcases mem_erase_or (j := j) hx with q | rfl
            · exact f x (.inl q)
            · exact f x (.inr (by simp))
          · exact f x (.inr (List.mem_append_left _ hx))
        · intro x hx
          rcases g x hx with q | q | q
          · exact .inl (List.mem_of_mem_erase q)
          · rcases List.mem_append.1 q with q | q
            · exact .inr (.inl q)
            · rw [List.mem_singleton] at q; subst q; exact .inr (.inr (List.mem_cons_self ..))
          · exact .inr (.inr (List.mem_cons_of_mem _ q))
    · obtain ⟨a, b, h, e, f, g⟩ := ih (s := s)
      refine ⟨a, b, h, e, f, ?_⟩
      intro x hx
      rcases g x hx with q | q | q
      · exact .inl q
      · exact .inr (.inl q)
      · exact .inr (.inr (List.mem_cons_of_mem _ q))

theorem handleInactive_spec {at_ : Int} {js : List Nat} {s : St} :
    ∃ a b h, handleInactive at_ js s = { s with active := a, inactive := b, handled := h } ∧
    (∀ x, x ∈ s.active ∨ x ∈ s.inactive → x ∈ a ∨ x ∈ b ∨ hi (s.heap x).ranges ≤ at_) ∧
    (∀ x, x ∈ a ∨ x ∈ b → x ∈ s.active ∨ x ∈ s.inactive ∨ x ∈ js) := by
  induction js generalizing s with
  | nil =>
    exact ⟨s.active, s.inactive, s.handled, rfl,
      fun x hx => hx.imp id .inl, fun x hx => hx.imp id .inl⟩
  | cons j js ih =>
    rw [handleInactive, til_eq]
    split
    · split
      · rename_i hex
        obtain ⟨a, b, h, e, f, g⟩ := ih
          (s := { s with inactive := s.inactive.erase j, handled := s.handled ++ [j] })
        refine ⟨a, b, h, e, ?_, ?_⟩
        · intro x hx
          rcases hx with hx | hx
          · exact f x (.inl hx)
          · rcases mem_erase_or (j := j) hx with q | rfl
            · exact f x (.inr q)
            · exact .inr (.inr (by simpa using hex))
        · intro x hx
          rcases g x hx with q | q | q
          · exact .inl q
          · exact .inr (.inl (List.mem_of_mem_erase q))
          · exact .inr (.inr (List.mem_cons_of_mem _ q))
      · obtain ⟨a, b, h, e, f, g⟩ := ih
          (s := { s with inactive := s.inactive.erase j, active := s.active ++ [j] })
        refine ⟨a, b, h, e, ?_, ?_⟩
        · intro x hx
          rcases hx with hx | hx
          · exact f x (.inl (List.mem_append_left _ hx))
          · rcases mem_erase_or (j := j) hx with q | rfl
            · exact f x (.inr q)
            · exact f x (.inl (by simp))
        · intro x hx
          rcases g x hx with q | q | q
          · rcases List.mem_append.1 q with q | q
            · exact .inl q
            · rw [List.mem_singleton] at q; subst q; exact .inr (.inr (List.mem_cons_self ..))
          · exact .inr (.inl (List.mem_of_mem_erase q))
          · exact .inr (.inr (List.mem_cons_of_mem _ q))
    · obtain ⟨a, b, h, e, f, g⟩ := ih (s := s)
      refine ⟨a, b, h, e, f, ?_⟩
      intro x hx
      rcases g x hx with q | q | q
      · exact .inl q
      · exact .inr (.inl q)
      · exact .inr (.inr (List.mem_cons_of_mem _ q))

theorem Cur.relist {F : Func} {P : Int} {s : St} {cur : Nat} {a b h : List Nat} (C : Cur F P s cur)
    (h1 : ∀ x, x ∈ s.active ∨ x ∈ s.inactive → x ∈ a ∨ x ∈ b ∨ hi (s.heap x).ranges ≤ P)
    (h2 : ∀ x, x ∈ a ∨ x ∈ b → x ∈ s.active ∨ x ∈ s.inactive) :
    Cur F P { s with active := a, inactive := b, handled := h } cur :=
  ⟨relist_inv C.inv h1 h2, C.n, C.lt, C.pre, C.frm, C.que, C.asg⟩

theorem handleActive_cur {F : Func} {P : Int} {s : St} {cur : Nat} (C : Cur F P s cur) :
    Cur F P (handleActive P s.active s) cur := by
  obtain ⟨a, b, h, e, f, g⟩ := handleActive_spec (at_ := P) (js := s.active) (s := s)
  rw [e]
  apply C.relist f
  intro x hx
  rcases g x hx with q | q | q
  · exact .inl q
  · exact .inr q
  · exact .inl q

theorem handleInactive_cur {F : Func} {P : Int} {s : St} {cur : Nat} (C : Cur F P s cur) :
    Cur F P (handleInactive P s.inactive s) cur := by
  obtain ⟨a, b, h, e, f, g⟩ := handleInactive_spec (at_ := P) (js := s.inactive) (s := s)
  rw [e]
  apply C.relist f
  intro x hx
  rcases g x hx with q | q | q
  · exact .inl q
  · exact .inr q
  · exact .inr q

/-! ### one round -/

theorem setHint_cur {F : Func} {P : Int} {s : St} {cur : Nat} (C : Cur F P s cur) (o : Option Nat) :
    Cur F P (s.set cur { s.heap cur with hint := o }) cur := by
  have I := C.inv
  have fld : ∀ j, ∃ a, (s.set cur { s.heap cur with hint := o }).heap j =
      { s.heap j with hint := a } := by
    intro j
    by_cases e : j = cur
    · subst e; exact ⟨o, by simp [St.set]⟩
    · exact ⟨(s.heap j).hint, by simp [St.set, e]⟩
  have rg : ∀ j, ((s.set cur { s.heap cur with hint := o }).heap j).ranges =
      (s.heap j).ranges := by intro j; obtain ⟨a, e⟩ := fld j; rw [e]
  have us : ∀ j, ((s.set cur { s.heap cur with hint := o }).heap j).uses =
      (s.heap j).uses := by intro j; obtain ⟨a, e⟩ := fld j; rw [e]
  have sz : ∀ j, ((s.set cur { s.heap cur with hint := o }).heap j).size =
      (s.heap j).size := by intro j; obtain ⟨a, e⟩ := fld j; rw [e]
  have ft : ∀ j, ((s.set cur { s.heap cur with hint := o }).heap j).constFloat =
      (s.heap j).constFloat := by intro j; obtain ⟨a, e⟩ := fld j; rw [e]
  have sp : ∀ j, ((s.set cur { s.heap cur with hint := o }).heap j).spilled =
      (s.heap j).spilled := by intro j; obtain ⟨a, e⟩ := fld j; rw [e]
  have cl : ∀ j, ((s.set cur { s.heap cur with hint := o }).heap j).cls =
      (s.heap j).cls := by intro j; obtain ⟨a, e⟩ := fld j; rw [e]
  have ag : ∀ j, ((s.set cur { s.heap cur with hint := o }).heap j).assigned =
      (s.heap j).assigned := by intro j; obtain ⟨a, e⟩ := fld j; rw [e]
  have rt : ∀ j, rootOf (s.set cur { s.heap cur with hint := o }) j = rootOf s j := by
    intro j; obtain ⟨a, e⟩ := fld j; simp only [rootOf]; rw [e]
  have hn := C.n
  have hl := C.lt
  refine ⟨?_, C.n, C.lt, C.pre, by rw [rg]; exact C.frm, C.que, by rw [ag]; exact C.asg⟩
  refine ⟨?_, ?_, ?_, ?_, ?_, ?_, ?_, ?_, ?_, ?_, ?_, I.qn, ?_⟩
  · apply I.geo.same
    · rfl
    · rfl
    · rfl
    · intro j hj
      have : j ≠ cur := by omega
      simp [St.set, this]
    · intro j; obtain ⟨a, e⟩ := fld j; rw [e]; simp
  · have S := I.slot
    refine ⟨S.grow, ?_, ?_, ?_⟩
    · intro x; rw [sz]; exact S.slot x
    · intro x y; rw [sz, sz]; exact S.apart x y
    · intro x; rw [sp, rt, ft]; exact S.has x
  · intro x; rw [ag]; exact I.pre x
  · intro x; rw [sp, us]; exact I.must x
  · intro x; rw [us, ag]; exact I.stk x
  · intro x; rw [ag, sp]; exact I.stat x
  · intro x; rw [ag, cl]; exact I.cls x
  · intro x y; rw [ag, ag, rg, rg]; exact I.apart x y
  · intro x; rw [rg, ag]; exact I.cover x
  · intro x; rw [ft]; exact I.lists x
  · apply I.qs.imp
    intro a b hab
    rw [rg, rg]; exact hab
  · intro x; rw [rg, ag]; exact I.q x

theorem allocate_inv {F : Func} (hF : F.Ok) (hno : NoHoist F) {P : Int} {s s' : St} {cur : Nat}
    (C : Cur F P s cur) (hcf : (s.heap cur).constFloat = false)
    (h : allocate F.cfg s cur = some s') : Inv F P [] s' := by
  rw [allocate] at h
  split at h
  · cases h
  · rename_i s1 hs
    cases h
    rcases allocFree_inv hF C hcf hs with ⟨_, q⟩ | ⟨q, _⟩
    · exact q
    · cases q
  · rename_i s1 hs
    rcases allocFree_inv hF C hcf hs with ⟨q, _⟩ | ⟨_, q⟩
    · cases q
    · subst q
      split at h
      · cases h
      · rename_i s2 hs2
        cases h
        exact allocBlock_inv hF hno C hcf hs2
      · rename_i s2 hs2
        cases h
        exact allocBlock_inv hF hno C hcf hs2

theorem pop_inv {F : Func} {P : Int} {s : St} {cur : Nat} {rest : List Nat} (I : Inv F P [] s)
    (h : s.unhandled = cur :: rest) :
    Inv F (lo (s.heap cur).ranges) [cur] { s with unhandled := rest } ∧ F.cfg.nregs ≤ cur ∧
      cur < s.next ∧ cur ∉ rest ∧ ((s.heap cur).assigned = 0 ∨ Pre F cur) := by
  obtain ⟨c1, c2, c3, c4⟩ := I.q cur (by rw [h]; exact List.mem_cons_self ..)
  have hqs := I.qs
  rw [h, List.pairwise_cons] at hqs
  have hqn := I.qn
  rw [h, List.nodup_cons] at hqn
  refine ⟨?_, c1, c2, hqn.1, c4⟩
  refine ⟨⟨I.geo.nle, I.geo.low, I.geo.free, I.geo.idx, I.geo.cnt, I.geo.root, I.geo.kid, I.geo.mvs⟩,
    ⟨I.slot.grow, I.slot.slot, I.slot.apart, I.slot.has⟩, I.pre, I.must,
    fun i a b _ => I.stk i a b (by simp), ?_, I.cls, I.apart, ?_, I.lists, hqs.2, hqn.2, ?_⟩
  · intro i a b e
    rcases I.stat i a b (by simp) with q | q
    · rw [h] at q
      rcases List.mem_cons.1 q with rfl | q
      · simp at e
      · exact .inl q
    · exact .inr q
  · intro i a _ b d
    rcases I.cover i a (by simp) b d with q | q | q | q
    · exact .inl q
    · exact .inr (.inl q)
    · exact .inr (.inr (.inl q))
    · exact .inr (.inr (.inr (Int.le_trans q c3)))
  · intro x hx
    obtain ⟨a, b, d, e⟩ := I.q x (by rw [h]; exact List.mem_cons_of_mem _ hx)
    exact ⟨a, b, hqs.1 x hx, e⟩

theorem round_inv {F : Func} (hF : F.Ok) (hno : NoHoist F) {P : Int} {s s' : St} {cur : Nat}
    {rest : List Nat} (I : Inv F P [] s) (h : s.unhandled = cur :: rest)
    (hr : round F.cfg { s with unhandled := rest } cur = some s') :
    Inv F (lo (s.heap cur).ranges) [] s' := by
  obtain ⟨J, c1, c2, c3, c4⟩ := pop_inv I h
  rw [round] at hr
  split at hr
  · rename_i ha
    cases hr
    apply handle_inv
    have hp : Pre F cur := by
      rcases c4 with q | q
      · exact absurd q ha
      · exact q
    apply J.drop
    · exact .inr (.inl ha)
    · intro q; exact absurd hp q
    · intro _ q; exact absurd hp q
  · rename_i ha
    have hp : ¬ Pre F cur := fun q => I.pre cur q (by simpa using ha)
    have C : Cur F (lo (s.heap cur).ranges) { s with unhandled := rest } cur :=
      ⟨J, c1, c2, hp, rfl, c3, by simpa using ha⟩
    simp only [frm_eq] at hr
    have C1 := handleActive_cur C
    have C2 := handleInactive_cur C1
    simp only at C1 C2
    generalize handleInactive _ _ _ = s2 at hr C2
    have sp : ∀ {t}, (match spillInterval F.cfg.blocks s2 cur 0 with
        | none => none
        | some s3 => some (s3.handle cur)) = some t → Inv F (lo (s.heap cur).ranges) [] t := by
      intro t ht
      split at ht
      · cases ht
      · rename_i s3 hs3
        cases ht
        exact handle_inv (C2.spill hF hs3) _
    split at hr
    · exact sp hr
    · split at hr
      · exact sp hr
      · split at hr
        · exact sp hr
        · split at hr
          · exact sp hr
          · rename_i hcf
            apply allocate_inv hF hno (setHint_cur C2 _) _ hr
            simp [St.set]
            simpa using hcf

theorem walk_inv {F : Func} (hF : F.Ok) (hno : NoHoist F) {n : Nat} {P : Int} {s s' : St}
    (I : Inv F P [] s) (h : walk F.cfg n s = some s') :
    ∃ P', Inv F P' [] s' ∧ s'.unhandled = [] := by
  induction n generalizing P s with
  | zero => cases h
  | succ n ih =>
    rw [walk] at h
    split at h
    · rename_i hu
      cases h
      exact ⟨P, I, hu⟩
    · rename_i cur rest hu
      split at h
      · cases h
      · rename_i s1 hs
        exact ih (round_inv hF hno I hu hs) h

/-! ### the start -/

theorem heap0_var {F : Func} {k : Nat} {V : Var} (h : F.vars[k]? = some V) :
    heap0 F (F.cfg.nregs + k) = varIv F k V := by
  rw [heap0, if_neg (by omega), show F.cfg.nregs + k - F.cfg.nregs = k by omega, h]

theorem mem_varIds {F : Func} {i : Nat} :
    i ∈ varIds F ↔ F.cfg.nregs ≤ i ∧ i < F.cfg.nregs + F.vars.length := by
  rw [varIds, List.mem_range'_1]

theorem var_of_id {F : Func} {i : Nat} (h1 : F.cfg.nregs ≤ i)
    (h2 : i < F.cfg.nregs + F.vars.length) : ∃ k V, i = F.cfg.nregs + k ∧ F.vars[k]? = some V :=
  ⟨i - F.cfg.nregs, _, by omega, List.getElem?_eq_getElem (by omega : i - F.cfg.nregs < F.vars.length)⟩

theorem start_queue {F : Func} (l acc : List Nat) (hn : (l ++ acc).Nodup)
    (hs : acc.Pairwise fun x y => lo (heap0 F x).ranges ≤ lo (heap0 F y).ranges) :
    let r := l.foldl (fun a d => sortTo (heap0 F) d a) acc
    r.Nodup ∧ (r.Pairwise fun x y => lo (heap0 F x).ranges ≤ lo (heap0 F y).ranges) ∧
      ∀ x, x ∈ r ↔ x ∈ l ∨ x ∈ acc := by
  induction l generalizing acc with
  | nil => exact ⟨hn, hs, by simp⟩
  | cons d l ih =>
    have hd : d ∉ acc := by
      rw [List.cons_append, List.nodup_cons] at hn
      exact fun q => hn.1 (List.mem_append_right _ q)
    have hn' : (l ++ sortTo (heap0 F) d acc).Nodup := by
      rw [List.cons_append, List.nodup_cons, List.nodup_append] at hn
      rw [List.nodup_append]
      refine ⟨hn.2.1, sortTo_nodup hn.2.2.1 hd, ?_⟩
      intro a ha b hb
      rcases sortTo_mem.1 hb with rfl | hb
      · rintro rfl; exact hn.1 (List.mem_append_left _ ha)
      · exact hn.2.2.2 a ha b hb
    obtain ⟨a, b, c⟩ := ih _ hn' (sortTo_sorted hs)
    refine ⟨a, b, ?_⟩
    intro x
    rw [List.foldl_cons, c x, sortTo_mem, List.mem_cons]
    constructor
    · rintro (q | q | q)
      · exact .inl (.inr q)
      · exact .inl (.inl q)
      · exact .inr q
    · rintro ((q | q) | q)
      · exact .inr (.inl q)
      · exact .inl q
      · exact .inr (.inr q)

theorem start_geo {F : Func} (hF : F.Ok) (hne : ∀ v ∈ F.vars, v.ranges ≠ []) : Geo F (start F) := by
  refine ⟨Nat.le_refl _, fun j _ => rfl, ?_, ?_, ?_, ?_, ?_, ?_⟩
  · intro j a b
    obtain ⟨k, V, rfl, hk⟩ := var_of_id a b
    change (heap0 F _).fixed = false
    rw [heap0_var hk]; rfl
  · intro i j a b c d e
    obtain ⟨k, V, rfl, hk⟩ := var_of_id a b
    obtain ⟨k', V', rfl, hk'⟩ := var_of_id c d
    change (heap0 F _).index = (heap0 F _).index at e
    rw [heap0_var hk, heap0_var hk'] at e
    simp only [varIv] at e
    omega
  · intro i a b
    obtain ⟨k, V, rfl, hk⟩ := var_of_id a b
    change (heap0 F _).index < 2 * F.cfg.nregs + F.vars.length
    rw [heap0_var hk]
    simp only [varIv]
    have := (List.getElem?_eq_some_iff.1 hk).1
    omega
  · intro k V hk
    have e : (start F).heap (F.cfg.nregs + k) = varIv F k V := heap0_var hk
    have hV := hF.vars V (List.mem_of_getElem? hk)
    refine ⟨by rw [e]; rfl, by rw [e]; rfl, ?_, ?_⟩
    · rw [e]; intro x hx; cases hx
    · rw [e]
      refine ⟨?_, by simp [varIv], ?_, ?_, ?_, ?_, ?_, ?_⟩
      · intro x hx
        simp only [varIv, List.mem_singleton] at hx
        subst hx
        rw [e]
        exact ⟨hV.sorted, hV.nonEmpty, hne V (List.mem_of_getElem? hk)⟩
      · intro p
        constructor
        · intro hp
          exact ⟨_, List.mem_cons_self .., by rw [e]; exact hp⟩
        · rintro ⟨x, hx, hp⟩
          simp only [varIv, List.mem_singleton] at hx
          subst hx
          rw [e] at hp; exact hp
      · simp [varIv, e]
      · intro x hx u hu
        simp only [varIv, List.mem_singleton] at hx
        subst hx
        rw [e] at hu ⊢
        rcases hV.uses u hu with ⟨r, hr, q⟩ | ⟨q, _⟩
        · left
          refine ⟨rfl, ?_⟩
          cases hrs : V.ranges with
          | nil => rw [hrs] at hr; cases hr
          | cons y ys => rw [hrs] at hr; cases hr; exact q
        · exact .inr q
      · intro x hx
        simp only [varIv, List.mem_singleton] at hx
        subst hx; rw [e]; rfl
      · intro x hx
        simp only [varIv, List.mem_singleton] at hx
        subst hx; rw [e]; rfl
      · intro p x hx y hy hxy
        simp only [varIv, List.mem_singleton] at hx hy
        exact absurd (hx.trans hy.symm) hxy
  · intro i a b
    change i < F.cfg.nregs + F.vars.length at b
    omega
  · intro m hm; cases hm

theorem start_inv {F : Func} (hF : F.Ok) (hne : ∀ v ∈ F.vars, v.ranges ≠ []) :
    Inv F 0 [] (start F) := by
  have g := start_geo hF hne
  have hnd : (varIds F ++ []).Nodup := by rw [List.append_nil, varIds]; exact List.nodup_range'
  obtain ⟨q1, q2, q3⟩ := start_queue (F := F) (varIds F) [] hnd List.Pairwise.nil
  have hheap : ∀ j, (start F).heap j = heap0 F j := fun _ => rfl
  have var : ∀ i, F.cfg.nregs ≤ i → i < (start F).next → (heap0 F i).spilled = false ∧
      ((heap0 F i).assigned ≠ 0 → Pre F i) := by
    intro i a b
    obtain ⟨k, V, rfl, hk⟩ := var_of_id a b
    rw [heap0_var hk]
    exact ⟨rfl, fun e => ⟨k, V, rfl, hk, e⟩⟩
  have reg : ∀ i, i < F.cfg.nregs → heap0 F i = fixedIv F i := by
    intro i h; rw [heap0, if_pos h]
  have inq : ∀ i, F.cfg.nregs ≤ i → i < (start F).next → i ∈ (start F).unhandled := by
    intro i a b
    exact (q3 i).2 (.inl (mem_varIds.2 ⟨a, b⟩))
  refine ⟨g, ?_, ?_, ?_, ?_, ?_, ?_, ?_, ?_, ?_, q2, q1, ?_⟩
  · refine ⟨Int.le_refl _, ?_, ?_, ?_⟩
    · intro r h; exact absurd rfl h
    · intro r r' _ h; exact absurd rfl h
    · intro i a b c
      rw [hheap, (var i a b).1] at c; cases c
  · rintro i ⟨k, V, rfl, hk, hp⟩
    rw [hheap, heap0_var hk]; exact hp
  · intro i a b c
    rw [hheap, (var i a b).1] at c; cases c
  · intro i a b _ c d
    exact absurd ((var i a b).2 d) c
  · intro i a b _; exact .inl (inq i a b)
  · intro i a b c
    by_cases h : i < F.cfg.nregs
    · rw [hheap, reg i h] at b ⊢
      exact ⟨Nat.one_le_iff_ne_zero.2 b, h, rfl⟩
    · exact absurd ((var i (by omega) a).2 b) c
  · intro i j a b c d e f f' p
    by_cases h : i < F.cfg.nregs
    · by_cases h' : j < F.cfg.nregs
      · rw [hheap, hheap, reg i h, reg j h'] at d
        exact absurd d c
      · rw [d] at e
        exact absurd ((var j (by omega) b).2 e) f'
    · exact absurd ((var i (by omega) a).2 e) f
  · intro i a _ b c
    by_cases h : i < F.cfg.nregs
    · rw [hheap, reg i h] at b ⊢
      by_cases hr : F.fixed i = []
      · exact .inr (.inr (.inl hr))
      · refine .inr (.inl ?_)
        change i ∈ (regIds F.cfg.nregs).filter _
        rw [List.mem_filter, mem_regIds]
        exact ⟨⟨Nat.one_le_iff_ne_zero.2 b, h⟩, by simpa using hr⟩
    · exact absurd ((var i (by omega) a).2 b) c
  · intro j hj
    rcases hj with hj | hj
    · cases hj
    · change j ∈ (regIds F.cfg.nregs).filter _ at hj
      rw [List.mem_filter, mem_regIds] at hj
      refine ⟨?_, fun q => by omega⟩
      change j < F.cfg.nregs + F.vars.length
      omega
  · intro x hx
    have hx' := mem_varIds.1 (by simpa using (q3 x).1 hx)
    have := (g.pos hF hx'.1 hx'.2).1
    refine ⟨hx'.1, hx'.2, by omega, ?_⟩
    by_cases h : (heap0 F x).assigned = 0
    · exact .inl h
    · exact .inr ((var x hx'.1 hx'.2).2 h)

theorem run_inv {F : Func} (hF : F.Ok) (hno : NoHoist F) {fuel : Nat} {s : St}
    (h : run F fuel = some s) : ∃ P, Inv F P [] s ∧ s.unhandled = [] := by
  rw [run] at h
  split at h
  · rename_i hall
    apply walk_inv hF hno (start_inv hF _) h
    intro v hv
    have := (List.all_eq_true.1 hall) v hv
    simpa using this
  · cases h

end Nature.Alloc
