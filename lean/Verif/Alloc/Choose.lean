import Verif.Alloc.Ops
/-
Finding a register keeps the invariant: a free one, or one taken away from others.
-/
namespace Nature.Alloc
open Nature.Ranges (Range Covers Sorted NonEmpty splitRanges)

theorem handle_inv {F : Func} {P : Int} {ex : List Nat} {s : St} (I : Inv F P ex s) (i : Nat) :
    Inv F P ex (s.handle i) :=
  ⟨⟨I.geo.nle, I.geo.low, I.geo.free, I.geo.idx, I.geo.cnt, I.geo.root, I.geo.kid, I.geo.mvs⟩,
    ⟨I.slot.grow, I.slot.slot, I.slot.apart, I.slot.has⟩, I.pre, I.must, I.stk, I.stat, I.cls,
    I.apart, I.cover, I.lists, I.qs, I.qn, I.q⟩

theorem Geo.sorted {F : Func} (hF : F.Ok) {s : St} (g : Geo F s) {j : Nat} (h : j < s.next) :
    Sorted (s.heap j).ranges ∧ NonEmpty (s.heap j).ranges := by
  by_cases h1 : j < F.cfg.nregs
  · rw [g.low j (.inl h1), heap0, if_pos h1]
    exact hF.fixed j
  · obtain ⟨a, b, _⟩ := g.part (by omega) h
    exact ⟨a, b⟩

theorem Inv.notPre {F : Func} {P : Int} {ex : List Nat} {s : St} (I : Inv F P ex s) {j : Nat}
    (h : j ∈ s.active ∨ j ∈ s.inactive) : ¬ Pre F j := by
  intro hp
  have := pre_lt hp
  exact ((I.lists j h).2 this.1).2 hp

/-- The interval in hand. -/
structure Cur (F : Func) (P : Int) (s : St) (cur : Nat) : Prop where
  inv : Inv F P [cur] s
  n : F.cfg.nregs ≤ cur
  lt : cur < s.next
  pre : ¬ Pre F cur
  frm : lo (s.heap cur).ranges = P
  que : cur ∉ s.unhandled
  asg : (s.heap cur).assigned = 0

theorem Cur.step {F : Func} {P : Int} {s s' : St} {cur : Nat} (C : Cur F P s cur)
    (h : Step s s') (I : Inv F P [cur] s') : Cur F P s' cur := by
  have := h.nx
  have := C.lt
  refine ⟨I, C.n, by omega, C.pre, by rw [h.frm cur C.lt]; exact C.frm, ?_, ?_⟩
  · intro hm
    rcases h.que cur hm with q | q
    · exact C.que q
    · omega
  · rcases h.asg cur C.lt with q | q
    · rw [q]; exact C.asg
    · exact q

/-- Spilling the interval in hand. -/
theorem Cur.spill {F : Func} (hF : F.Ok) {P : Int} {s s' : St} {cur : Nat} (C : Cur F P s cur)
    (h : spillInterval F.cfg.blocks s cur 0 = some s') : Inv F P [] s' := by
  have A := spillInterval_inv hF C.inv C.n C.lt C.pre (.inl (by rw [C.frm]; omega)) h
  have := (C.inv.geo.pos hF C.n C.lt).1
  rcases A.res with ⟨q, _⟩ | ⟨_, _, _, q⟩
  · omega
  · exact q

/-- Splitting the interval in hand and queueing the rest. -/
theorem Cur.split {F : Func} (hF : F.Ok) {P : Int} {s s1 : St} {cur d : Nat} {pos : Int}
    (C : Cur F P s cur) (h : splitAt F.cfg.blocks s cur pos = some (s1, d)) :
    Cur F P (enqueue s1 d) cur ∧ Step s (enqueue s1 d) ∧ Cut s s1 cur d pos := by
  obtain ⟨I1, S1, X⟩ := splitAt_inv hF C.inv C.n C.lt h
  have hd := X.c_eq
  have hn := X.next
  have := C.lt
  have := C.n
  have I2 : Inv F P [cur] (enqueue s1 d) := by
    apply enqueue_inv I1
    · omega
    · omega
    · exact X.casg
    · have := X.cfrm; have := X.frm; rw [C.frm] at this; omega
    · rw [X.que]; intro hm
      have := (C.inv.q d hm).2.1
      omega
  have S2 : Step s (enqueue s1 d) := enqueue_step S1 (by omega)
  exact ⟨C.step S2 I2, S2, X⟩

/-! ### free registers -/

theorem initPos_other {cfg : Cfg} {c : Cls} {r : Nat} (h : cfg.cls r ≠ c) :
    initPos cfg c r = -1 := by
  rw [initPos, if_neg]
  exact fun q => h q.2.2

theorem initPos_self {cfg : Cfg} {c : Cls} {r : Nat} (h1 : 1 ≤ r) (h2 : r < cfg.nregs)
    (h : cfg.cls r = c) : initPos cfg c r = intMax := by
  rw [initPos, if_pos ⟨h1, h2, h⟩]

/-- The position `allocate_free_reg` computes for a register: below it, no interval that has the
register is live where the one in hand is. -/
theorem free_spec {F : Func} (hF : F.Ok) {P : Int} {s : St} {cur r : Nat} {free : Nat → Int}
    (C : Cur F P s cur)
    (h : freeInactive F.cfg.blocks s.heap (s.heap cur)
      (freeActive s.heap (s.heap cur) (initPos F.cfg (s.heap cur).cls) s.active) s.inactive = some free)
    (h1 : 1 ≤ r) (h2 : r < F.cfg.nregs) (hpos : 0 < free r) :
    F.cfg.cls r = (s.heap cur).cls ∧
    ∀ j, j < s.next → j ≠ cur → (s.heap j).assigned = r → ¬ Pre F j →
      ∀ p, p < free r → Covers (s.heap cur).ranges p → ¬ Covers (s.heap j).ranges p := by
  have I := C.inv
  have hcls : ∀ j, j ∈ s.active ∨ j ∈ s.inactive → (s.heap j).assigned = r →
      F.cfg.cls r = (s.heap j).cls := by
    intro j hj e
    have := (I.cls j (I.lists j hj).1 (by omega) (I.notPre hj)).2.2
    rw [e] at this; exact this
  have hc : F.cfg.cls r = (s.heap cur).cls := by
    apply Classical.byContradiction
    intro hne
    have hno : ∀ j, j ∈ s.active ∨ j ∈ s.inactive → (s.heap j).cls = (s.heap cur).cls →
        (s.heap j).assigned ≠ r := by
      intro j hj e ha
      exact hne (by rw [hcls j hj ha, e])
    have e1 := freeInactive_other h (r := r) (fun j hj => hno j (.inr hj))
    rw [freeActive_other (fun j hj => hno j (.inl hj)), initPos_other hne] at e1
    omega
  refine ⟨hc, ?_⟩
  have hi0 : 0 ≤ initPos F.cfg (s.heap cur).cls r := by
    rw [initPos_self h1 h2 hc]; decide
  obtain ⟨a1, a2, a3⟩ := freeActive_spec (heap := s.heap) (cur := s.heap cur) (js := s.active) hi0
  obtain ⟨sc, nc, zc⟩ := I.geo.part C.n C.lt
  obtain ⟨p0, pe⟩ := I.geo.pos hF C.n C.lt
  obtain ⟨b1, b2, b3⟩ := freeInactive_spec hF.numbered sc nc p0 pe
    (fun j hj => I.geo.sorted hF (I.lists j (.inr hj)).1) h a1
  intro j hj hne ha hp p hlt c1 c2
  rcases I.cover j hj (by simp [hne]) (by omega) hp with q | q | q | q
  · have := a3 j q (by rw [← hcls j (.inl q) ha, hc]) ha
    omega
  · exact b3 j q (by rw [← hcls j (.inr q) ha, hc]) ha p hlt ⟨c1, c2⟩
  · rw [q] at c2; obtain ⟨_, hh, _⟩ := c2; cases hh
  · have := lt_hi (I.geo.sorted hF hj).1 c2
    have := lo_le sc c1
    have := C.frm
    omega

theorem takeFree_inv {F : Func} (hF : F.Ok) {P : Int} {s s' : St} {cur reg : Nat} {fp : Int}
    (C : Cur F P s cur) (hcf : (s.heap cur).constFloat = false) (h1 : 1 ≤ reg)
    (h2 : reg < F.cfg.nregs) (hc : F.cfg.cls reg = (s.heap cur).cls)
    (hd : ∀ j, j < s.next → j ≠ cur → (s.heap j).assigned = reg → ¬ Pre F j →
      ∀ p, p < fp → Covers (s.heap cur).ranges p → ¬ Covers (s.heap j).ranges p)
    (h : takeFree F.cfg s cur reg fp = some s') : Inv F P [] s' := by
  rw [takeFree, til_eq] at h
  split at h
  · split at h
    · cases h
    · rename_i p hp
      have hlt := optimalSplit_lt hF.numbered hp
      split at h
      · cases h
      · rename_i s1 d hs
        split at h
        · cases h
        · rename_i s2 ha
          cases h
          obtain ⟨C1, S1, X⟩ := C.split hF hs
          have hpos : (if p = (s.heap cur).frm then fp else p) ≤ fp := by split <;> omega
          have hdn := X.c_eq
          have hnx := X.next
          apply assign_inv hF C1.inv C1.n C1.lt C1.pre _ _ C1.que h1 h2 _ _ ha
          · rw [S1.flt cur C.lt]; exact hcf
          · rw [C1.frm]; omega
          · rw [S1.cls cur C.lt]; exact hc
          · intro j hj hne hja hpre q c1 c2
            have hjn : j < s.next := by
              apply Classical.byContradiction
              intro hge
              have : j = d := by simp only [enqueue] at hj; omega
              subst this
              have : ((enqueue s1 j).heap j).assigned = 0 := X.casg
              omega
            have hl := X.left q c1
            have hja' : (s.heap j).assigned = reg := by
              rcases S1.asg j hjn with e | e <;> omega
            exact hd j hjn hne hja' hpre q (by omega) (S1.cov cur C.lt q c1) (S1.cov j hjn q c2)
  · rename_i hge
    split at h
    · cases h
    · rename_i s2 ha
      cases h
      apply assign_inv hF C.inv C.n C.lt C.pre hcf _ C.que h1 h2 hc _ ha
      · rw [C.frm]; omega
      · intro j hj hne hja hpre q c1 c2
        obtain ⟨sc, _, _⟩ := C.inv.geo.part C.n C.lt
        have := lt_hi sc c1
        exact hd j hj hne hja hpre q (by omega) c1 c2

theorem allocFree_inv {F : Func} (hF : F.Ok) {P : Int} {s s' : St} {cur : Nat} {b : Bool}
    (C : Cur F P s cur) (hcf : (s.heap cur).constFloat = false)
    (h : allocFree F.cfg s cur = some (b, s')) :
    (b = true ∧ Inv F P [] s') ∨ (b = false ∧ s' = s) := by
  rw [allocFree] at h
  simp only at h
  split at h
  · cases h
  · rename_i free hfree
    generalize hreg : findFree F.cfg.nregs (s.heap cur).til (s.heap cur).frm
      (findHint s.heap (s.heap cur)) free = reg at h
    split at h
    · cases h; exact .inr ⟨rfl, rfl⟩
    · rename_i hne
      have hr0 : reg ≠ 0 := fun e => hne (.inl e)
      obtain ⟨r1, r2, r3⟩ := findFree_spec hreg hr0
      obtain ⟨sc, nc, zc⟩ := C.inv.geo.part C.n C.lt
      have hlh := lo_lt_hi sc nc zc
      have hp0 := (C.inv.geo.pos hF C.n C.lt).1
      rw [til_eq, frm_eq] at r3
      obtain ⟨hc, hd⟩ := free_spec hF C hfree r1 r2 (by omega)
      left
      split at h
      · cases h
      · rename_i u us hu
        split at h
        · split at h
          · cases h
          · rename_i s1 hs
            cases h
            exact ⟨rfl, handle_inv (C.spill hF hs) _⟩
        · split at h
          · split at h
            · split at h
              · cases h
              · rename_i s1 d hs
                rw [splitBefore] at hs
                split at hs
                · cases hs
                · split at h
                  · cases h
                  · rename_i s2 hs2
                    cases h
                    obtain ⟨C1, _, _⟩ := C.split hF hs
                    exact ⟨rfl, handle_inv (C1.spill hF hs2) _⟩
            · split at h
              · cases h
              · rename_i s1 hs
                cases h
                exact ⟨rfl, handle_inv (C.spill hF hs) _⟩
          · split at h
            · cases h
            · rename_i s1 hs
              cases h
              exact ⟨rfl, takeFree_inv hF C hcf r1 r2 hc hd hs⟩

/-! ### taking a register away -/

theorem nextUse_nonneg {us : List Use} {a : Int} (h : 0 ≤ a) : 0 ≤ nextUse us a := by
  induction us with
  | nil => simp [nextUse]
  | cons u us ih => rw [nextUse]; split <;> omega

theorem blockActive_spec {heap : Nat → Iv} {cur : Iv} {js : List Nat} {l l' : Pos} {r : Nat}
    (hf : 0 ≤ cur.frm) (h : blockActive heap cur l js = some l') (h1 : 0 ≤ l.use r)
    (h2 : 0 ≤ l.block r) :
    0 ≤ l'.use r ∧ l'.use r ≤ l.use r ∧ 0 ≤ l'.block r ∧ l'.block r ≤ l.block r ∧
    ∀ j ∈ js, (heap j).cls = cur.cls → (heap j).assigned = r → (heap j).fixed = true → l'.use r ≤ 0 := by
  induction js generalizing l with
  | nil =>
    rw [blockActive] at h; cases h
    exact ⟨h1, by omega, h2, by omega, by intro j hj; cases hj⟩
  | cons a js ih =>
    rw [blockActive] at h
    split at h
    · rename_i hc
      obtain ⟨a1, a2, a3, a4, a5⟩ := ih h h1 h2
      refine ⟨a1, a2, a3, a4, ?_⟩
      intro j hj c
      rcases List.mem_cons.1 hj with rfl | hj
      · exact absurd c hc
      · exact a5 j hj c
    · split at h
      · cases h
      · split at h
        · rename_i hfx
          obtain ⟨k1, k2, k3⟩ := setPos_le (k := (heap a).assigned) (p := 0) h1 (by omega)
          obtain ⟨m1, m2, m3⟩ := setPos_le (k := (heap a).assigned) (p := 0) h2 (by omega)
          obtain ⟨a1, a2, a3, a4, a5⟩ := ih h k1 m1
          simp only [Pos.setBlock] at a2 a4
          refine ⟨a1, by omega, a3, by omega, ?_⟩
          intro j hj c e f
          rcases List.mem_cons.1 hj with rfl | hj
          · have := k3 e.symm; omega
          · exact a5 j hj c e f
        · rename_i hfx
          split at h
          · cases h
          · obtain ⟨k1, k2, k3⟩ := setPos_le (k := (heap a).assigned)
              (p := if cur.frm - (heap a).frm ≤ 1 then 0 else nextUse (heap a).uses cur.frm) h1
              (by split; omega; exact nextUse_nonneg hf)
            obtain ⟨a1, a2, a3, a4, a5⟩ := ih h k1 h2
            simp only [Pos.setUse] at a2 a4
            refine ⟨a1, by omega, a3, by omega, ?_⟩
            intro j hj c e f
            rcases List.mem_cons.1 hj with rfl | hj
            · exact absurd f hfx
            · exact a5 j hj c e f

theorem blockActive_other {heap : Nat → Iv} {cur : Iv} {js : List Nat} {l l' : Pos} {r : Nat}
    (h : blockActive heap cur l js = some l')
    (hr : ∀ j ∈ js, (heap j).cls = cur.cls → (heap j).assigned ≠ r) : l'.use r = l.use r := by
  induction js generalizing l with
  | nil => rw [blockActive] at h; cases h; rfl
  | cons a js ih =>
    have ih' := fun l => ih (l := l) (hr := fun j hj => hr j (List.mem_cons_of_mem _ hj))
    rw [blockActive] at h
    split at h
    · exact ih' _ h
    · rename_i hcl
      have hne : r ≠ (heap a).assigned := fun e =>
        hr a (List.mem_cons_self ..) (by simpa using hcl) e.symm
      split at h
      · cases h
      · split at h
        · rw [ih' _ h]; exact setPos_other hne
        · split at h
          · cases h
          · rw [ih' _ h]; exact setPos_other hne

theorem blockInactive_spec {bs : List Blk} (hb : Numbered bs) {heap : Nat → Iv} {cur : Iv}
    {js : List Nat} {l l' : Pos} {r : Nat}
    (hc : Sorted cur.ranges) (hcn : NonEmpty cur.ranges) (hpos : 0 < lo cur.ranges)
    (he : ∀ b, bs.head? = some b → b.label < lo cur.ranges)
    (hjs : ∀ j ∈ js, Sorted (heap j).ranges ∧ NonEmpty (heap j).ranges)
    (h : blockInactive bs heap cur l js = some l') (h1 : 0 ≤ l.use r) (h2 : 0 ≤ l.block r) :
    0 ≤ l'.use r ∧ l'.use r ≤ l.use r ∧ 0 ≤ l'.block r ∧ l'.block r ≤ l.block r ∧
    ∀ j ∈ js, (heap j).cls = cur.cls → (heap j).assigned = r → (heap j).fixed = true →
      ∀ q, q < l'.block r → ¬ (Covers cur.ranges q ∧ Covers (heap j).ranges q) := by
  have hf : 0 ≤ cur.frm := by rw [frm_eq]; omega
  induction js generalizing l with
  | nil =>
    rw [blockInactive] at h; cases h
    exact ⟨h1, by omega, h2, by omega, by intro j hj; cases hj⟩
  | cons a js ih =>
    have ih' := fun l => ih (l := l) (fun j hj => hjs j (List.mem_cons_of_mem _ hj))
    rw [blockInactive] at h
    split at h
    · rename_i hc
      obtain ⟨a1, a2, a3, a4, a5⟩ := ih' _ h h1 h2
      refine ⟨a1, a2, a3, a4, ?_⟩
      intro j hj c
      rcases List.mem_cons.1 hj with rfl | hj
      · exact absurd c hc
      · exact a5 j hj c
    · split at h
      · cases h
      · split at h
        · cases h
        · rename_i p hp
          split at h
          · cases h
          · obtain ⟨s1, s2⟩ := hjs a (List.mem_cons_self ..)
            obtain ⟨p0, pf⟩ := nextIntersect_spec hb hc hcn s1 s2 hpos he hp
            split at h
            · obtain ⟨k1, k2, k3⟩ := setPos_le (k := (heap a).assigned) (p := p) h1 (by omega)
              obtain ⟨m1, m2, m3⟩ := setPos_le (k := (heap a).assigned) (p := p) h2 (by omega)
              obtain ⟨a1, a2, a3, a4, a5⟩ := ih' _ h k1 m1
              simp only [Pos.setBlock] at a2 a4
              refine ⟨a1, by omega, a3, by omega, ?_⟩
              intro j hj c e f q hq
              rcases List.mem_cons.1 hj with rfl | hj
              · have := m3 e.symm
                exact pf q (by omega)
              · exact a5 j hj c e f q hq
            · rename_i hfx
              obtain ⟨k1, k2, k3⟩ := setPos_le (k := (heap a).assigned)
                (p := nextUse (heap a).uses cur.frm) h1 (nextUse_nonneg hf)
              obtain ⟨a1, a2, a3, a4, a5⟩ := ih' _ h k1 h2
              simp only [Pos.setUse] at a2 a4
              refine ⟨a1, by omega, a3, by omega, ?_⟩
              intro j hj c e f
              rcases List.mem_cons.1 hj with rfl | hj
              · exact absurd f hfx
              · exact a5 j hj c e f

theorem blockInactive_other {bs : List Blk} {heap : Nat → Iv} {cur : Iv} {js : List Nat}
    {l l' : Pos} {r : Nat} (h : blockInactive bs heap cur l js = some l')
    (hr : ∀ j ∈ js, (heap j).cls = cur.cls → (heap j).assigned ≠ r) : l'.use r = l.use r := by
  induction js generalizing l with
  | nil => rw [blockInactive] at h; cases h; rfl
  | cons a js ih =>
    have ih' := fun l => ih (l := l) (hr := fun j hj => hr j (List.mem_cons_of_mem _ hj))
    rw [blockInactive] at h
    split at h
    · exact ih' _ h
    · rename_i hcl
      have hne : r ≠ (heap a).assigned := fun e =>
        hr a (List.mem_cons_self ..) (by simpa using hcl) e.symm
      split at h
      · cases h
      · split at h
        · cases h
        · split at h
          · cases h
          · split at h
            · rw [ih' _ h]; exact setPos_other hne
            · rw [ih' _ h]; exact setPos_other hne

/-- The positions `allocate_block_reg` computes: a register with a late next use has the right class,
no reserved range at the moment, and below its block position no reserved range that meets the
interval in hand. -/
theorem block_spec {F : Func} (hF : F.Ok) {P : Int} {s : St} {cur r : Nat} {l : Pos}
    (C : Cur F P s cur) (h : blockPos F.cfg s (s.heap cur) = some l)
    (h1 : 1 ≤ r) (h2 : r < F.cfg.nregs) (hpos : 0 < l.use r) :
    F.cfg.cls r = (s.heap cur).cls ∧
    (∀ j ∈ s.active, (s.heap j).assigned = r → (s.heap j).fixed = false) ∧
    ∀ j ∈ s.inactive, (s.heap j).assigned = r → (s.heap j).fixed = true →
      ∀ p, p < l.block r → Covers (s.heap cur).ranges p → ¬ Covers (s.heap j).ranges p := by
  rw [blockPos] at h
  split at h
  · cases h
  · rename_i l1 hl1
    have I := C.inv
    have hcls : ∀ j, j ∈ s.active ∨ j ∈ s.inactive → (s.heap j).assigned = r →
        F.cfg.cls r = (s.heap j).cls := by
      intro j hj e
      have := (I.cls j (I.lists j hj).1 (by omega) (I.notPre hj)).2.2
      rw [e] at this; exact this
    have hc : F.cfg.cls r = (s.heap cur).cls := by
      apply Classical.byContradiction
      intro hne
      have hno : ∀ j, j ∈ s.active ∨ j ∈ s.inactive → (s.heap j).cls = (s.heap cur).cls →
          (s.heap j).assigned ≠ r := by
        intro j hj e ha
        exact hne (by rw [hcls j hj ha, e])
      have e1 := blockInactive_other h (r := r) (fun j hj => hno j (.inr hj))
      have e2 := blockActive_other hl1 (r := r) (fun j hj => hno j (.inl hj))
      simp only [initPos_other hne] at e2
      omega
    have hi0 : 0 ≤ initPos F.cfg (s.heap cur).cls r := by
      rw [initPos_self h1 h2 hc]; decide
    obtain ⟨sc, nc, zc⟩ := I.geo.part C.n C.lt
    obtain ⟨p0, pe⟩ := I.geo.pos hF C.n C.lt
    obtain ⟨a1, a2, a3, a4, a5⟩ := blockActive_spec (r := r) (by rw [frm_eq]; omega) hl1 hi0 hi0
    obtain ⟨b1, b2, b3, b4, b5⟩ := blockInactive_spec hF.numbered sc nc p0 pe
      (fun j hj => I.geo.sorted hF (I.lists j (.inr hj)).1) h a1 a3
    refine ⟨hc, ?_, ?_⟩
    · intro j hj e
      cases hfx : (s.heap j).fixed with
      | false => rfl
      | true =>
        have := a5 j hj (by rw [← hcls j (.inl hj) e, hc]) e hfx
        omega
    · intro j hj e hfx p hp c1 c2
      exact b5 j hj (by rw [← hcls j (.inr hj) e, hc]) e hfx p hp ⟨c1, c2⟩

/-- One victim. -/
theorem victim {F : Func} (hF : F.Ok) (hno : NoHoist F) {P : Int} {s s' : St} {cur j : Nat}
    (C : Cur F P s cur) (hj : j ∈ s.active ∨ j ∈ s.inactive) (hfx : (s.heap j).fixed = false)
    (ha : (s.heap j).assigned ≠ 0) (h : spillInterval F.cfg.blocks s j P = some s') :
    Cur F P s' cur ∧ Step s s' ∧
      ((s'.heap j).assigned = 0 ∨ ∀ p, Covers (s'.heap j).ranges p → p < P) := by
  have I := C.inv
  obtain ⟨j1, j2⟩ := I.geo.ids hfx
  obtain ⟨_, hl⟩ := I.lists j hj
  obtain ⟨hcf, hpre⟩ := hl j1
  have hjc : j ≠ cur := by rintro rfl; exact ha C.asg
  have A := spillInterval_inv hF (I.add j) j1 j2 hpre (.inr ⟨rfl, hno, hcf⟩) h
  have hn := A.step.nx
  have J : Inv F P [cur] s' := by
    rcases A.res with ⟨_, _, _, e, _⟩ | ⟨_, _, _, q⟩
    · apply A.inv.drop
      · exact .inr (.inl (by rw [e]; exact ha))
      · intro _ _ u hu
        exact I.stk j j1 j2 (by simp [hjc]) hpre ha u (A.step.use j j2 u hu)
      · intro _ _
        rcases I.cover j j2 (by simp [hjc]) ha hpre with q | q | q | q
        · exact .inl (by rw [A.step.act]; exact q)
        · exact .inr (.inl (by rw [A.step.ina]; exact q))
        · exact .inr (.inr (.inl (A.step.emp j j2 q)))
        · exact .inr (.inr (.inr (Int.le_trans (A.step.til j j2) q)))
    · exact q
  refine ⟨C.step A.step J, A.step, ?_⟩
  rcases A.res with ⟨_, e, _⟩ | ⟨_, e, _⟩
  · exact .inr e
  · exact .inl e

theorem meets_false {a b : Iv} (ha : Sorted a.ranges) (hb : Sorted b.ranges)
    (h : meets a b = some false) : ∀ p, Covers a.ranges p → ¬ Covers b.ranges p := by
  rw [meets] at h
  split at h
  · rename_i c cs r rs e1 e2
    rw [e1] at ha ⊢
    rw [e2] at hb ⊢
    have hsel : (rs.getLastD r).hi > c.lo := by
      rw [Ranges.isIntersect] at h
      split at h
      · cases h
      · omega
    obtain ⟨x, e, hx⟩ := Ranges.C38_is_intersect hb ha hsel
    rw [e] at h
    cases h
    intro p h1 h2
    have a1 := lo_le ha h1
    have a2 := lt_hi ha h1
    exact absurd (hx.2 ⟨p, a1, a2, h2⟩) (by simp)
  · cases h

/-- The intervals of `js` that keep the register `reg` in `s` do not meet the one in hand, unless
they are reserved ranges. -/
def Gone (s : St) (cur reg : Nat) (js : List Nat) : Prop :=
  ∀ j ∈ js, (s.heap j).assigned = reg → (s.heap j).fixed = false →
    ∀ p, Covers (s.heap cur).ranges p → ¬ Covers (s.heap j).ranges p

theorem Gone.step {s s' : St} {cur reg : Nat} {js : List Nat} (h : Gone s cur reg js)
    (S : Step s s') (hc : cur < s.next) (hj : ∀ j ∈ js, j < s.next) (hr : reg ≠ 0) :
    Gone s' cur reg js := by
  intro j hm ha hf p c1 c2
  have hlt := hj j hm
  rcases S.asg j hlt with e | e
  · exact h j hm (by omega) (by rw [← S.fix j hlt]; exact hf) p (S.cov cur hc p c1) (S.cov j hlt p c2)
  · omega

theorem evictMeeting_inv {F : Func} (hF : F.Ok) (hno : NoHoist F) {P : Int} {s s' : St}
    {cur reg : Nat} {js : List Nat} (C : Cur F P s cur) (hr : reg ≠ 0)
    (hjs : ∀ j ∈ js, j ∈ s.active ∨ j ∈ s.inactive)
    (h : evictMeeting F.cfg.blocks cur reg P js s = some s') :
    Cur F P s' cur ∧ Step s s' ∧ Gone s' cur reg js := by
  induction js generalizing s with
  | nil => rw [evictMeeting] at h; cases h; exact ⟨C, Step.refl _, by intro j hj; cases hj⟩
  | cons j js ih =>
    have hj := hjs j (List.mem_cons_self ..)
    have hjs' := fun x hx => hjs x (List.mem_cons_of_mem _ hx)
    have hlt := (C.inv.lists j hj).1
    -- carry on without a change
    have skip : (Gone s cur reg [j]) → evictMeeting F.cfg.blocks cur reg P js s = some s' →
        Cur F P s' cur ∧ Step s s' ∧ Gone s' cur reg (j :: js) := by
      intro g h
      obtain ⟨C', S', G'⟩ := ih C hjs' h
      refine ⟨C', S', ?_⟩
      have g' := g.step S' C.lt (by intro x hx; rw [List.mem_singleton] at hx; omega) hr
      intro x hx
      rcases List.mem_cons.1 hx with rfl | hx
      · exact g' x (by simp)
      · exact G' x hx
    rw [evictMeeting] at h
    split at h
    · rename_i hne
      apply skip _ h
      intro x hx ha
      rw [List.mem_singleton] at hx; subst hx
      exact absurd ha hne
    · rename_i ha
      split at h
      · cases h
      · rename_i hm
        apply skip _ h
        intro x hx _ _
        rw [List.mem_singleton] at hx; subst hx
        exact meets_false (C.inv.geo.sorted hF C.lt).1 (C.inv.geo.sorted hF hlt).1 hm
      · split at h
        · rename_i hfx
          apply skip _ h
          intro x hx _ hf
          rw [List.mem_singleton] at hx; subst hx
          rw [hfx] at hf; cases hf
        · rename_i hfx
          split at h
          · cases h
          · rename_i s1 hs
            obtain ⟨C1, S1, V⟩ := victim hF hno C hj (by simpa using hfx) (by omega) hs
            obtain ⟨C', S', G'⟩ := ih C1 (fun x hx => by rw [S1.act, S1.ina]; exact hjs' x hx) h
            refine ⟨C', S1.trans S', ?_⟩
            have g1 : Gone s1 cur reg [j] := by
              intro x hx ha hf p c1 c2
              rw [List.mem_singleton] at hx; subst hx
              rcases V with V | V
              · omega
              · have := V p c2
                have := lo_le (C1.inv.geo.sorted hF C1.lt).1 c1
                have := C1.frm
                omega
            have g' := g1.step S' C1.lt (by
              intro x hx; rw [List.mem_singleton] at hx; have := S1.nx; omega) hr
            intro x hx
            rcases List.mem_cons.1 hx with rfl | hx
            · exact g' x (by simp)
            · exact G' x hx

theorem evictAll_inv {F : Func} (hF : F.Ok) (hno : NoHoist F) {P : Int} {s s' : St}
    {cur reg : Nat} {js : List Nat} (C : Cur F P s cur) (hr : reg ≠ 0)
    (hjs : ∀ j ∈ js, j ∈ s.active ∨ j ∈ s.inactive)
    (h : evictAll F.cfg.blocks reg P js s = some s') :
    Cur F P s' cur ∧ Step s s' ∧ Gone s' cur reg js := by
  induction js generalizing s with
  | nil => rw [evictAll] at h; cases h; exact ⟨C, Step.refl _, by intro j hj; cases hj⟩
  | cons j js ih =>
    have hj := hjs j (List.mem_cons_self ..)
    have hjs' := fun x hx => hjs x (List.mem_cons_of_mem _ hx)
    have hlt := (C.inv.lists j hj).1
    have skip : (Gone s cur reg [j]) → evictAll F.cfg.blocks reg P js s = some s' →
        Cur F P s' cur ∧ Step s s' ∧ Gone s' cur reg (j :: js) := by
      intro g h
      obtain ⟨C', S', G'⟩ := ih C hjs' h
      refine ⟨C', S', ?_⟩
      have g' := g.step S' C.lt (by intro x hx; rw [List.mem_singleton] at hx; omega) hr
      intro x hx
      rcases List.mem_cons.1 hx with rfl | hx
      · exact g' x (by simp)
      · exact G' x hx
    rw [evictAll] at h
    split at h
    · rename_i hne
      apply skip _ h
      intro x hx ha
      rw [List.mem_singleton] at hx; subst hx
      exact absurd ha hne
    · rename_i ha
      split at h
      · rename_i hfx
        apply skip _ h
        intro x hx _ hf
        rw [List.mem_singleton] at hx; subst hx
        rw [hfx] at hf; cases hf
      · rename_i hfx
        split at h
        · cases h
        · rename_i s1 hs
          obtain ⟨C1, S1, V⟩ := victim hF hno C hj (by simpa using hfx) (by omega) hs
          obtain ⟨C', S', G'⟩ := ih C1 (fun x hx => by rw [S1.act, S1.ina]; exact hjs' x hx) h
          refine ⟨C', S1.trans S', ?_⟩
          have g1 : Gone s1 cur reg [j] := by
            intro x hx ha hf p c1 c2
            rw [List.mem_singleton] at hx; subst hx
            rcases V with V | V
            · omega
            · have := V p c2
              have := lo_le (C1.inv.geo.sorted hF C1.lt).1 c1
              have := C1.frm
              omega
          have g' := g1.step S' C1.lt (by
            intro x hx; rw [List.mem_singleton] at hx; have := S1.nx; omega) hr
          intro x hx
          rcases List.mem_cons.1 hx with rfl | hx
          · exact g' x (by simp)
          · exact G' x hx

/-- After the evictions, nothing that has the register meets the interval in hand. -/
theorem clear_after {F : Func} (hF : F.Ok) {P : Int} {s s' : St} {cur reg : Nat} {bp : Int}
    (C : Cur F P s cur) (C' : Cur F P s' cur) (S : Step s s') (hr : reg ≠ 0)
    (ga : Gone s' cur reg s.active) (gi : Gone s' cur reg s.inactive)
    (ha : ∀ j ∈ s.active, (s.heap j).assigned = reg → (s.heap j).fixed = false)
    (hb : ∀ j ∈ s.inactive, (s.heap j).assigned = reg → (s.heap j).fixed = true →
      ∀ p, p < bp → Covers (s.heap cur).ranges p → ¬ Covers (s.heap j).ranges p)
    (j : Nat) (hj : j < s'.next) (hne : j ≠ cur) (hja : (s'.heap j).assigned = reg)
    (hpre : ¬ Pre F j) (p : Int) (hp : p < bp) (c1 : Covers (s'.heap cur).ranges p) :
    ¬ Covers (s'.heap j).ranges p := by
  intro c2
  rcases C'.inv.cover j hj (by simp [hne]) (by omega) hpre with q | q | q | q
  · rw [S.act] at q
    have hlt := (C.inv.lists j (.inl q)).1
    have hja0 : (s.heap j).assigned = reg := by rcases S.asg j hlt with e | e <;> omega
    exact ga j q hja (by rw [S.fix j hlt]; exact ha j q hja0) p c1 c2
  · rw [S.ina] at q
    have hlt := (C.inv.lists j (.inr q)).1
    have hja0 : (s.heap j).assigned = reg := by rcases S.asg j hlt with e | e <;> omega
    cases hfx : (s.heap j).fixed with
    | false => exact gi j q hja (by rw [S.fix j hlt]; exact hfx) p c1 c2
    | true => exact hb j q hja0 hfx p hp (S.cov cur C.lt p c1) (S.cov j hlt p c2)
  · rw [q] at c2; obtain ⟨_, hh, _⟩ := c2; cases hh
  · have := lt_hi (C'.inv.geo.sorted hF hj).1 c2
    have := lo_le (C'.inv.geo.sorted hF C'.lt).1 c1
    have := C'.frm
    omega

theorem allocBlock_inv {F : Func} (hF : F.Ok) (hno : NoHoist F) {P : Int} {s s' : St} {cur : Nat}
    {b : Bool} (C : Cur F P s cur) (hcf : (s.heap cur).constFloat = false)
    (h : allocBlock F.cfg s cur = some (b, s')) :
    Inv F P [] (if b then s'.activate cur else s'.handle cur) := by
  rw [allocBlock] at h
  simp only at h
  split at h
  · cases h
  · rename_i l hl
    generalize hreg : findBlock F.cfg.nregs (s.heap cur).frm (findHint s.heap (s.heap cur)) l.use = reg at h
    split at h
    · cases h
    · rename_i u us hu
      split at h
      · split at h
        · cases h
        · split at h
          · cases h
          · rename_i s1 hs
            cases h
            exact handle_inv (C.spill hF hs) _
      · rename_i hcond
        have hr0 : reg ≠ 0 := fun e => hcond (.inl e)
        obtain ⟨r1, r2, r3⟩ := findBlock_spec hreg hr0
        have hp0 := (C.inv.geo.pos hF C.n C.lt).1
        rw [frm_eq] at r3
        obtain ⟨hc, hfa, hfi⟩ := block_spec hF C hl r1 r2 (by omega)
        have hfrm : (s.heap cur).frm = P := by rw [frm_eq]; exact C.frm
        rw [hfrm] at h
        split at h
        · rename_i hge
          split at h
          · cases h
          · rename_i s1 hs1
            split at h
            · cases h
            · rename_i s2 hs2
              split at h
              · cases h
              · rename_i s3 hs3
                cases h
                obtain ⟨C1, S1, G1⟩ := evictMeeting_inv hF hno C hr0 (fun j hj => .inl hj) hs1
                obtain ⟨C2, S2, G2⟩ := evictMeeting_inv hF hno C1 hr0
                  (fun j hj => .inr (by rw [S1.ina]; exact hj)) hs2
                have S := S1.trans S2
                have ga := G1.step S2 C1.lt
                  (fun j hj => by have := (C.inv.lists j (.inl hj)).1; have := S1.nx; omega) hr0
                apply assign_inv hF C2.inv C2.n C2.lt C2.pre _ _ C2.que r1 r2 _ _ hs3
                · rw [S.flt cur C.lt]; exact hcf
                · rw [C2.frm]; omega
                · rw [S.cls cur C.lt]; exact hc
                · intro j hj hne hja hpre p c1
                  rw [til_eq] at hge
                  have := lt_hi (C.inv.geo.sorted hF C.lt).1 (S.cov cur C.lt p c1)
                  exact clear_after hF C C2 S hr0 ga G2 hfa hfi j hj hne hja hpre p (by omega) c1
        · rename_i hge
          split at h
          · cases h
          · rename_i s1 hs1
            split at h
            · cases h
            · rename_i s2 hs2
              split at h
              · cases h
              · rename_i s3 d hs3
                split at h
                · cases h
                · rename_i s4 hs4
                  cases h
                  obtain ⟨C1, S1, G1⟩ := evictAll_inv hF hno C hr0 (fun j hj => .inl hj) hs1
                  obtain ⟨C2, S2, G2⟩ := evictAll_inv hF hno C1 hr0
                    (fun j hj => .inr (by rw [S1.ina]; exact hj)) hs2
                  have S := S1.trans S2
                  have ga := G1.step S2 C1.lt
                    (fun j hj => by have := (C.inv.lists j (.inl hj)).1; have := S1.nx; omega) hr0
                  rw [splitBefore] at hs3
                  split at hs3
                  · cases hs3
                  · rename_i pp hpp
                    have hlt := optimalSplit_lt hF.numbered hpp
                    obtain ⟨C3, S3, X⟩ := C2.split hF hs3
                    have S' := S.trans S3
                    have hdn := X.c_eq
                    have hnx := X.next
                    apply assign_inv hF C3.inv C3.n C3.lt C3.pre _ _ C3.que r1 r2 _ _ hs4
                    · rw [S'.flt cur C.lt]; exact hcf
                    · rw [C3.frm]; omega
                    · rw [S'.cls cur C.lt]; exact hc
                    · intro j hj hne hja hpre p c1 c2
                      have hjn : j < s2.next := by
                        apply Classical.byContradiction
                        intro hge
                        have : j = d := by simp only [enqueue] at hj; omega
                        subst this
                        have : ((enqueue s3 j).heap j).assigned = 0 := X.casg
                        omega
                      have hl := X.left p c1
                      have hja' : (s2.heap j).assigned = reg := by
                        rcases S3.asg j hjn with e | e <;> omega
                      exact clear_after hF C C2 S hr0 ga G2 hfa hfi j hjn hne hja' hpre p (by omega)
                        (S3.cov cur C2.lt p c1) (S3.cov j hjn p c2)

end Nature.Alloc
