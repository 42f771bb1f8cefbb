import Verif.Abi.Transfer
import Verif.Abi.Spec
/-
Results, for every target: in registers, part by part, or in storage of the caller whose address was passed.
-/
namespace Nature.Abi

/-- The parts of the returned object go to registers. -/
def retOps (ps : List (PL × Nat × Nat)) : List Op := ps.map fun p => .mov p.1.opd (.ind .ret p.2.1) p.2.2

/-- The caller stores them. -/
def resOps (ps : List (PL × Nat × Nat)) : List Op := ps.map fun p => .mov (.ind .res p.2.1) p.1.opd p.2.2

/-- Registers only. -/
def Regs (ps : List (PL × Nat × Nat)) : Prop := (∀ p ∈ ps, p.1.isStk = false) ∧ ps.Pairwise fun p q => p.1 ≠ q.1

theorem reg_cover {sp : Int} {p q : PL} {n m : Nat} {c : CL} (hp : p.isStk = false) (hq : q.isStk = false)
    (h1 : (p.loc sp).cover n c) (h2 : (q.loc sp).cover m c) : p = q := by
  obtain ⟨k, _, rfl⟩ := h1
  obtain ⟨k', _, e⟩ := h2
  cases p <;> cases q <;> simp_all [PL.loc, Loc.at, PL.isStk]

theorem reg_not {sp : Int} {p : PL} {n : Nat} {c : CL} (hp : p.isStk = false) (h : (p.loc sp).cover n c) :
    (∀ a, c ≠ .mem a) ∧ ∀ v k, c ≠ .var v k := by
  obtain ⟨k, _, rfl⟩ := h
  cases p <;> simp_all [PL.loc, Loc.at, PL.isStk]

theorem ret_run {e : Env} {r : Int} : ∀ (ps : List (PL × Nat × Nat)) (s : State), Regs ps → PtrAt s (.var .ret) r →
    ∃ s', exec e (retOps ps) s = some s' ∧ Agree (fun c => ∃ p ∈ ps, (p.1.loc e.sp).cover p.2.2 c) s s' ∧
      ∀ p ∈ ps, ∀ k, k < p.2.2 → s' ((p.1.loc e.sp).at k) = s (.mem (r + (p.2.1 + k : Nat)))
  | [], s, _, _ => ⟨s, rfl, Agree.refl, fun _ h => by cases h⟩
  | p :: ps, s, hr, hp => by
    obtain ⟨hr1, hr2⟩ := hr
    rw [List.pairwise_cons] at hr2
    have hps := hr1 p (List.mem_cons_self ..)
    obtain ⟨s1, e1, A1, v1⟩ := step_mov (e := e) (s := s) (d := p.1.opd) (x := .ind .ret p.2.1) (n := p.2.2) (PL.opd_loc _) (loc_ind hp)
    have hp1 : PtrAt s1 (.var .ret) r := hp.agree A1 fun k _ h => (reg_not hps h).2 _ _ rfl
    obtain ⟨s', e2, A2, v2⟩ := ret_run ps s1 ⟨fun q hq => hr1 q (List.mem_cons_of_mem _ hq), hr2.2⟩ hp1
    refine ⟨s', exec_cons_some e1 e2, (A1.mono fun c h => ⟨p, List.mem_cons_self .., h⟩).trans
      (A2.mono fun c ⟨q, hq, h⟩ => ⟨q, List.mem_cons_of_mem _ hq, h⟩), ?_⟩
    intro q hq k hk
    rcases List.mem_cons.1 hq with rfl | hq'
    · rw [A2 _ (by
        rintro ⟨q', hq', h⟩
        exact hr2.1 q' hq' (reg_cover hps (hr1 q' (List.mem_cons_of_mem _ hq')) ⟨k, hk, rfl⟩ h)), v1 k hk]
      simp only [Loc.at]; congr 2; omega
    · rw [v2 q hq' k hk]
      exact A1 _ fun h => (reg_not hps h).1 _ rfl

/-- An object in registers; `pre` is what the caller does first to have the address of its storage. -/
theorem regs_pre {P : Ty → Nat → Prop} {t : Ty} {e e' : Env} {r b : Int} {s3 : State} {ps : List (PL × Nat × Nat)} {vs : List V} {pre : List Op}
    (ht : t.ind = true) (hR : Regs ps) (hb : ∀ p ∈ ps, p.2.1 + p.2.2 ≤ room t) (ho : ps.Pairwise fun p q => p.2.1 + p.2.2 ≤ q.2.1)
    (hc : ∀ k, P t k → ∃ p ∈ ps, p.2.1 ≤ k ∧ k < p.2.1 + p.2.2) (h : Returning t vs r b s3)
    (hpre : ∀ s, (∀ v k, s (.var v k) = s3 (.var v k)) →
      ∃ s', exec e' pre s = some s' ∧ Agree ((Loc.var .res).cover 8) s s' ∧ PtrAt s' (.var .res) b) :
    ∃ s4 s5, exec e (retOps ps) s3 = some s4 ∧ exec e' (pre ++ resOps ps) s4 = some s5 ∧ Returned P t r b s3 s5 := by
  obtain ⟨h1, -, h3⟩ := h.object ht
  obtain ⟨s4, e4, A4, v4⟩ := ret_run (e := e) ps s3 hR h1
  have hmem : ∀ a, s4 (.mem a) = s3 (.mem a) := fun a => A4 _ fun ⟨p, hp, h⟩ => (reg_not (hR.1 p hp) h).1 _ rfl
  have hvar : ∀ v k, s4 (.var v k) = s3 (.var v k) := fun v k => A4 _ fun ⟨p, hp, h⟩ => (reg_not (hR.1 p hp) h).2 _ _ rfl
  obtain ⟨s4', e4', A4', hb4⟩ := hpre s4 hvar
  have hpl : ∀ p ∈ ps, ∀ sp sp', p.1.loc sp = p.1.loc sp' := by
    intro p hp sp sp'
    have := hR.1 p hp
    cases hq : p.1 <;> simp_all [PL.loc, PL.isStk]
  obtain ⟨s5, e5, A5, v5⟩ := parts_store (e := e') (sp := e'.fp + 16) (by omega) (v := .res) (b := b) ps (room t) s4' hb4 hb
    (fun p hp c hc ⟨k, _, h⟩ => (reg_not (hR.1 p hp) hc).1 _ h) ho
  refine ⟨s4, s5, e4, exec_append_some e4' ?_, ?_, ?_, ?_⟩
  · rw [← e5]; unfold resOps
    congr 1
    refine List.map_congr_left fun p hp => ?_
    have := hR.1 p hp
    cases hq : p.1 <;> simp_all [PL.opd, PL.opdIn, PL.isStk]
  · intro s hs; subst hs; cases ht
  · intro _
    refine ⟨hb4.agree A5 (by rintro k _ ⟨k', _, h⟩; simp [Loc.at] at h), fun k hk => ?_⟩
    obtain ⟨p, hp, k1, k2⟩ := hc k hk
    have e1 := v5 p hp (k - p.2.1) (by omega)
    have e2 := v4 p hp (k - p.2.1) (by omega)
    rw [A4' _ (fun h => by
      obtain ⟨k', _, h⟩ := h
      have := hR.1 p hp
      cases hq : p.1 <;> simp_all [PL.loc, PL.isStk, Loc.at]), hpl p hp (e'.fp + 16) e.sp, e2] at e1
    rw [show (p.2.1 + (k - p.2.1) : Nat) = k from by omega] at e1
    exact e1
  · intro a ha
    rw [A5 _ (fun h => by have := ha ht; have := memR_mem.1 h; omega), A4' _ (by rintro ⟨k', _, h⟩; simp [Loc.at] at h), hmem]

/-- An object in registers, storage made before the call. -/
theorem regs_ok {P : Ty → Nat → Prop} {t : Ty} {e e' : Env} {r b : Int} {s3 : State} {ps : List (PL × Nat × Nat)} (ht : t.ind = true)
    (hR : Regs ps) (hb : ∀ p ∈ ps, p.2.1 + p.2.2 ≤ room t) (ho : ps.Pairwise fun p q => p.2.1 + p.2.2 ≤ q.2.1)
    (hc : ∀ k, P t k → ∃ p ∈ ps, p.2.1 ≤ k ∧ k < p.2.1 + p.2.2) (h : Returning t [.res] r b s3) :
    ∃ s4 s5, exec e (retOps ps) s3 = some s4 ∧ exec e' (resOps ps) s4 = some s5 ∧ Returned P t r b s3 s5 :=
  regs_pre (pre := []) ht hR hb ho hc h fun s hs => ⟨s, rfl, Agree.refl, fun k hk =>
    (hs _ _).trans ((h.object ht).2.1 _ (List.mem_singleton.2 rfl) k hk)⟩

/-- An object in registers, storage made after the call. -/
theorem regs_alloc_ok {P : Ty → Nat → Prop} {t : Ty} {e e' : Env} {r b : Int} {s3 : State} {ps : List (PL × Nat × Nat)} {so : Nat} (ht : t.ind = true)
    (hR : Regs ps) (hb : ∀ p ∈ ps, p.2.1 + p.2.2 ≤ room t) (ho : ps.Pairwise fun p q => p.2.1 + p.2.2 ≤ q.2.1)
    (hc : ∀ k, P t k → ∃ p ∈ ps, p.2.1 ≤ k ∧ k < p.2.1 + p.2.2) (h : Returning t [] r b s3) (hB : b = e'.fp - allocOff so t) :
    ∃ s4 s5, exec e (retOps ps) s3 = some s4 ∧ exec e' (allocOp so t .res :: resOps ps) s4 = some s5 ∧ Returned P t r b s3 s5 :=
  regs_pre (pre := [allocOp so t .res]) ht hR hb ho hc h fun s hs => by
    obtain ⟨s', e1, A1, p1⟩ := step_lea (e := e') (s := s) (d := .var .res) (x := .slot (-(allocOff so t : Int))) rfl rfl
    refine ⟨s', exec_cons_some e1 rfl, A1, ?_⟩
    rw [hB, Int.sub_eq_add_neg]; exact p1

/-- An object in storage the caller knows and whose address was passed: nothing is done after the call. -/
theorem mem_ok {P : Ty → Nat → Prop} {t : Ty} {e e' : Env} {r b : Int} {s3 : State} (hP : ∀ k, P t k → k < sizeOf t)
    (ht : t.ind = true) (h : Returning t [.big, .res] r b s3) :
    ∃ s4 s5, exec e (memMov 0 (sizeOf t) .big .ret) s3 = some s4 ∧ exec e' [] s4 = some s5 ∧ Returned P t r b s3 s5 := by
  obtain ⟨h1, h2, h3⟩ := h.object ht
  have hroom : sizeOf t ≤ room t := by
    unfold room
    rw [Nature.TypeLayout.alignUp_eight]
    split <;> omega
  obtain ⟨sa, ea, Aa, va⟩ := memMov_ok (e := e) (s := s3) (i := 0) (size := sizeOf t) (d := .big) (x := .ret) (by simp) (by simp) (by omega)
    (h2 .big (by simp)) h1
  refine ⟨sa, sa, ea, rfl, ?_, ?_, ?_⟩
  · intro s hs; subst hs; cases ht
  · intro _
    refine ⟨(h2 .res (by simp)).agree Aa (by rintro k _ (⟨k', _, h⟩ | ⟨j, k', h⟩) <;> simp [Loc.at] at h), fun k hk => va k (hP k hk)⟩
  · intro a ha
    refine Aa _ ?_
    rintro (h | ⟨j, k, h⟩)
    · have := ha ht; have := memR_mem.1 h; omega
    · simp at h

/-- A scalar in a register. -/
theorem scal_ok {P : Ty → Nat → Prop} {s : Scal} {e e' : Env} {r b : Int} {s3 : State} {p : PL} (hp : p.isStk = false) :
    ∃ s4 s5, exec e [.mov p.opd (.var .ret) s.size] s3 = some s4 ∧ exec e' [.mov (.var .res) p.opd s.size] s4 = some s5 ∧
      Returned P (.scal s) r b s3 s5 := by
  obtain ⟨s4, e4, A4, v4⟩ := step_mov (e := e) (s := s3) (d := p.opd) (x := .var .ret) (n := s.size) (PL.opd_loc _) rfl
  obtain ⟨s5, e5, A5, v5⟩ := step_mov (e := e') (s := s4) (d := .var .res) (x := p.opd) (n := s.size) rfl (PL.opd_loc _)
  refine ⟨s4, s5, exec_cons_some e4 rfl, exec_cons_some e5 rfl, ?_, ?_, ?_⟩
  · rintro s' hs k hk; cases hs
    refine (v5 k hk).trans ?_
    have : (p.loc e'.sp).at k = (p.loc e.sp).at k := by cases p <;> simp_all [PL.loc, PL.isStk]
    rw [this]; exact v4 k hk
  · intro h; cases h
  · intro a _
    rw [A5 _ (by rintro ⟨k, _, h⟩; simp [Loc.at] at h)]
    exact A4 _ fun h => (reg_not hp h).1 _ rfl

/-- An object in storage whose address was passed and is given back in a register. -/
theorem big_ok {P : Ty → Nat → Prop} {t : Ty} {e e' : Env} {r b : Int} {s3 : State} {p : PL} (hP : ∀ k, P t k → k < sizeOf t)
    (ht : t.ind = true) (hp : p.isStk = false) (h : Returning t [.big] r b s3) :
    ∃ s4 s5, exec e (memMov 0 (sizeOf t) .big .ret ++ [.mov p.opd (.var .big) 8]) s3 = some s4 ∧
      exec e' [.mov (.var .res) p.opd 8] s4 = some s5 ∧ Returned P t r b s3 s5 := by
  obtain ⟨h1, h2, h3⟩ := h.object ht
  replace h2 := h2 _ (List.mem_singleton.2 rfl)
  have hroom : sizeOf t ≤ room t := by
    unfold room
    rw [Nature.TypeLayout.alignUp_eight]
    split <;> omega
  obtain ⟨sa, ea, Aa, va⟩ := memMov_ok (e := e) (s := s3) (i := 0) (size := sizeOf t) (d := .big) (x := .ret) (by simp) (by simp) (by omega) h2 h1
  have hb : PtrAt sa (.var .big) b := h2.agree Aa (by rintro k _ (⟨k', _, h⟩ | ⟨j, k', h⟩) <;> simp [Loc.at] at h)
  obtain ⟨s4, e4, A4, v4⟩ := step_mov (e := e) (s := sa) (d := p.opd) (x := .var .big) (n := 8) (PL.opd_loc _) rfl
  obtain ⟨s5, e5, A5, v5⟩ := step_mov (e := e') (s := s4) (d := .var .res) (x := p.opd) (n := 8) rfl (PL.opd_loc _)
  have hm : ∀ a, s5 (.mem a) = sa (.mem a) := fun a => by
    rw [A5 _ (by rintro ⟨k, _, h⟩; simp [Loc.at] at h)]
    exact A4 _ fun h => (reg_not hp h).1 _ rfl
  refine ⟨s4, s5, exec_append_some ea (exec_cons_some e4 rfl), exec_cons_some e5 rfl, ?_, ?_, ?_⟩
  · intro s hs; subst hs; cases ht
  · intro _
    refine ⟨fun k hk => ?_, fun k hk => ?_⟩
    · refine (v5 k hk).trans ?_
      have : (p.loc e'.sp).at k = (p.loc e.sp).at k := by cases p <;> simp_all [PL.loc, PL.isStk]
      rw [this]; exact (v4 k hk).trans (hb k hk)
    · rw [hm]; exact va k (hP k hk)
  · intro a ha
    rw [hm]
    refine Aa _ ?_
    rintro (h | ⟨j, k, h⟩)
    · have := ha ht; have := memR_mem.1 h; omega
    · simp at h

end Nature.Abi
