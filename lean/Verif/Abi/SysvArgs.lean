import Verif.Abi.SysvLemmas
/-
Passing arguments with the System V convention, end to end.
-/
namespace Nature.Abi.Sysv
open Nature.TypeLayout (alignUp alignUp_eight)

/-- The registers and stack bytes still free after `int` and `sse` registers and `off` bytes of stack, up to `fin` bytes. -/
def Free (sp : Int) (sse int off fin : Nat) (c : CL) : Prop :=
  (∃ r k, c = .gp r k ∧ r ∈ intRegs.drop int) ∨ (∃ r k, c = .fp r k ∧ r ∈ sseRegs.drop sse) ∨
  ∃ a, c = .mem a ∧ sp + off ≤ a ∧ a < sp + fin

theorem Free.mono {sp : Int} {sse int off fin sse' int' off' fin' : Nat} (h1 : sse' ≤ sse) (h2 : int' ≤ int) (h3 : off' ≤ off) (h4 : fin ≤ fin') {c : CL}
    (h : Free sp sse int off fin c) : Free sp sse' int' off' fin' c := by
  have hd : ∀ {l : List Nat} {m n r : Nat}, m ≤ n → r ∈ l.drop n → r ∈ l.drop m := by
    intro l m n r hmn hr
    have e : n = m + (n - m) := by omega
    rw [e, ← List.drop_drop] at hr
    exact List.mem_of_mem_drop hr
  rcases h with ⟨r, k, rfl, hr⟩ | ⟨r, k, rfl, hr⟩ | ⟨a, rfl, ha⟩
  · exact .inl ⟨r, k, rfl, hd h2 hr⟩
  · exact .inr (.inl ⟨r, k, rfl, hd h1 hr⟩)
  · exact .inr (.inr ⟨a, rfl, by omega, by omega⟩)

theorem intReg_in : ∀ m, m < 6 → intRegs.getD m 0 ∈ intRegs.drop m := by decide
theorem sseReg_in : ∀ m, m < 8 → sseRegs.getD m 0 ∈ sseRegs.drop m := by decide
theorem intReg_out : ∀ m, m < 6 → intRegs.getD m 0 ∉ intRegs.drop (m + 1) := by decide
theorem sseReg_out : ∀ m, m < 8 → sseRegs.getD m 0 ∉ sseRegs.drop (m + 1) := by decide

/-- A register taken is free before and not after. -/
theorem regPL_cells {sp : Int} {c : Cls} {int sse n off fin : Nat} (h1 : c = .integer → int < 6) (h2 : c ≠ .integer → c = .sse ∧ sse < 8) {x : CL}
    (h : ((regPL c int sse).loc sp).cover n x) : Free sp sse int off fin x ∧ ∀ off' fin', ¬ Free sp (nextS c sse) (nextI c int) off' fin' x := by
  obtain ⟨k, _, rfl⟩ := h
  by_cases hc : c = .integer
  · subst hc
    simp only [regPL, if_true, PL.loc, Loc.at, nextI, nextS]
    refine ⟨.inl ⟨_, _, rfl, intReg_in int (h1 rfl)⟩, ?_⟩
    rintro off' fin' (⟨r, k', h, hr⟩ | ⟨r, k', h, _⟩ | ⟨a, h, _⟩)
    · simp only [CL.gp.injEq] at h; rw [← h.1] at hr; exact intReg_out int (h1 rfl) hr
    · simp at h
    · simp at h
  · obtain ⟨rfl, h8⟩ := h2 hc
    simp only [regPL, hc, if_false, PL.loc, Loc.at, nextI, nextS]
    refine ⟨.inr (.inl ⟨_, _, rfl, sseReg_in sse h8⟩), ?_⟩
    rintro off' fin' (⟨r, k', h, _⟩ | ⟨r, k', h, hr⟩ | ⟨a, h, _⟩)
    · simp at h
    · simp only [CL.fp.injEq] at h; rw [← h.1] at hr; exact sseReg_out sse h8 hr
    · simp at h

theorem nextI_le (c : Cls) (int : Nat) : int ≤ nextI c int := by unfold nextI; split <;> omega
theorem nextS_le (c : Cls) (sse : Nat) : sse ≤ nextS c sse := by unfold nextS; split <;> omega

/-- The units of one value in registers. -/
theorem regParts_units {sp : Int} {i : Nat} {t : Ty} {lo hi : Cls} {sse int sse' int' : Nat} (hp : Picked t lo hi sse int sse' int') (off fin : Nat) :
    (∀ u ∈ (regParts t lo hi int sse).map (fun p => U.part i t p.1 p.2.1 p.2.2 .plain), ∀ c, u.cells sp c → Free sp sse int off fin c ∧
      ∀ off' fin', ¬ Free sp sse' int' off' fin' c) ∧
    ((regParts t lo hi int sse).map fun p => U.part i t p.1 p.2.1 p.2.2 .plain).Pairwise fun u v => ∀ c, u.cells sp c → ¬ v.cells sp c := by
  have one : ∀ (n : Nat) (c : CL), ((regPL lo int sse).loc sp).cover n c → Free sp sse int off fin c ∧
      ∀ off' fin', ¬ Free sp (nextS lo sse) (nextI lo int) off' fin' c := fun n c h => regPL_cells hp.lo1 hp.lo2 h
  have eI := hp.eI; have eS := hp.eS
  have single : ∀ n, two hi = false → regParts t lo hi int sse = [(regPL lo int sse, 0, n)] →
      (∀ u ∈ (regParts t lo hi int sse).map (fun p => U.part i t p.1 p.2.1 p.2.2 .plain), ∀ c, u.cells sp c → Free sp sse int off fin c ∧
        ∀ off' fin', ¬ Free sp sse' int' off' fin' c) ∧
      ((regParts t lo hi int sse).map fun p => U.part i t p.1 p.2.1 p.2.2 .plain).Pairwise fun u v => ∀ c, u.cells sp c → ¬ v.cells sp c := by
    intro n h2 e
    simp only [h2, Bool.false_eq_true, if_false] at eI eS
    subst eI eS
    rw [e]
    refine ⟨?_, by simp⟩
    intro u hu c hc
    simp only [List.map_cons, List.map_nil, List.mem_singleton] at hu
    subst hu
    exact one _ c (cells_plain hc)
  cases t with
  | arr n e => exact absurd hp.c (by rw [cls_arr]; simp)
  | scal s => exact single s.size (scal_not_two hp.c) rfl
  | agg es =>
    cases h2 : two hi with
    | false => exact single 8 h2 (by simp [regParts, h2])
    | true =>
      simp only [h2, if_true] at eI eS
      subst eI eS
      have two' : ∀ (n : Nat) (c : CL), ((regPL hi (nextI lo int) (nextS lo sse)).loc sp).cover n c →
          Free sp (nextS lo sse) (nextI lo int) off fin c ∧
          ∀ off' fin', ¬ Free sp (nextS hi (nextS lo sse)) (nextI hi (nextI lo int)) off' fin' c :=
        fun n c h => regPL_cells (hp.hi1 h2) (hp.hi2 h2) h
      have e : regParts (.agg es) lo hi int sse = [(regPL lo int sse, 0, 8), (regPL hi (nextI lo int) (nextS lo sse), 8, 8)] := by
        simp [regParts, h2]
      rw [e]
      refine ⟨?_, ?_⟩
      · intro u hu c hc
        simp only [List.map_cons, List.map_nil, List.mem_cons, List.not_mem_nil, or_false] at hu
        rcases hu with rfl | rfl
        · obtain ⟨a, b⟩ := one _ c (cells_plain hc)
          exact ⟨a, fun o f h => b o f (h.mono (nextS_le ..) (nextI_le ..) (Nat.le_refl _) (Nat.le_refl _))⟩
        · obtain ⟨a, b⟩ := two' _ c (cells_plain hc)
          exact ⟨a.mono (nextS_le ..) (nextI_le ..) (Nat.le_refl _) (Nat.le_refl _), b⟩
      · simp only [List.map_cons, List.map_nil, List.pairwise_cons, List.mem_singleton, List.not_mem_nil, false_imp_iff,
          implies_true, List.Pairwise.nil, and_true]
        rintro v rfl c hc hc'
        exact (one _ c (cells_plain hc)).2 off fin (two' _ c (cells_plain hc')).1

theorem callerMark_ge : ∀ (ts : List Ty) (sse int off : Nat), off ≤ (callerMark ts sse int off).2
  | [], _, _, off => Nat.le_refl _
  | t :: ts, sse, int, off => by
    unfold callerMark
    cases h : callerPick t sse int with
    | none =>
      have := callerMark_ge ts sse int (off + alignUp (sizeOf t) 8)
      simp only; omega
    | some p => exact callerMark_ge ts p.1 p.2 off

theorem picked_le {t : Ty} {lo hi : Cls} {sse int sse' int' : Nat} (hp : Picked t lo hi sse int sse' int') : sse ≤ sse' ∧ int ≤ int' := by
  have eI := hp.eI; have eS := hp.eS
  have := nextI_le lo int; have := nextS_le lo sse
  have := nextI_le hi (nextI lo int); have := nextS_le hi (nextS lo sse)
  constructor
  · rw [eS]; split <;> omega
  · rw [eI]; split <;> omega

theorem mkItems_units {sp : Int} : ∀ (ts : List Ty) (i sse int off so : Nat),
    (∀ u ∈ (mkItems i ts sse int off so).flatMap Item.units, ∀ c, u.cells sp c → Free sp sse int off (callerMark ts sse int off).2 c) ∧
    ((mkItems i ts sse int off so).flatMap Item.units).Pairwise fun u v => ∀ c, u.cells sp c → ¬ v.cells sp c
  | [], i, sse, int, off, so => by simp [mkItems]
  | t :: ts, i, sse, int, off, so => by
    cases h : callerPick t sse int with
    | none =>
      rw [mkItems_none h, List.flatMap_cons]
      have ih := mkItems_units (sp := sp) ts (i + 1) sse int (off + alignUp (sizeOf t) 8) so
      have hm : (callerMark (t :: ts) sse int off).2 = (callerMark ts sse int (off + alignUp (sizeOf t) 8)).2 := by
        simp only [callerMark, h]
      have hge := callerMark_ge ts sse int (off + alignUp (sizeOf t) 8)
      have h8 : sizeOf t ≤ alignUp (sizeOf t) 8 := Nature.TypeLayout.le_alignUp Nature.TypeLayout.pow8
      rw [hm]
      have hu : ∀ u ∈ Item.units { i := i, t := t, pl := if t.ind then .whole off else .parts [(.stk off, 0, sizeOf t)] },
          ∀ c, u.cells sp c → memR (sp + off) (sizeOf t) c := by
        intro u hu c hc
        cases hi : t.ind with
        | true =>
          simp only [hi, if_true, Item.units, List.mem_singleton] at hu
          subst hu; exact hc
        | false =>
          simp only [hi, Bool.false_eq_true, if_false, Item.units, List.map_cons, List.map_nil, List.mem_singleton] at hu
          subst hu; exact cells_plain hc
      have hpw : (Item.units { i := i, t := t, pl := if t.ind then .whole off else .parts [(.stk off, 0, sizeOf t)] }).Pairwise
          fun u v => ∀ c, u.cells sp c → ¬ v.cells sp c := by
        cases hi : t.ind with
        | true => simp [Item.units]
        | false => simp [Item.units]
      refine ⟨?_, List.pairwise_append.2 ⟨hpw, ih.2, ?_⟩⟩
      · intro u hu' c hc
        rcases List.mem_append.1 hu' with h | h
        · obtain ⟨k, hk, rfl⟩ := hu u h c hc
          exact .inr (.inr ⟨_, rfl, by omega, by omega⟩)
        · exact (ih.1 u h c hc).mono (Nat.le_refl _) (Nat.le_refl _) (by omega) (Nat.le_refl _)
      · intro u hu1 v hv c hc hc'
        obtain ⟨k, hk, rfl⟩ := hu u hu1 c hc
        rcases ih.1 v hv _ hc' with ⟨r, k', e, _⟩ | ⟨r, k', e, _⟩ | ⟨a, e, h1, _⟩
        · simp at e
        · simp at e
        · simp only [CL.mem.injEq] at e; omega
    | some p =>
      obtain ⟨sse', int'⟩ := p
      obtain ⟨lo, hi, hp⟩ := picked h
      rw [mkItems_some h hp, List.flatMap_cons]
      have ih := mkItems_units (sp := sp) ts (i + 1) sse' int' off (if t.ind then allocOff so t else so)
      have hm : (callerMark (t :: ts) sse int off).2 = (callerMark ts sse' int' off).2 := by
        simp only [callerMark, h]
      rw [hm]
      obtain ⟨r1, r2⟩ := regParts_units (sp := sp) (i := i) hp off (callerMark ts sse' int' off).2
      have hle := picked_le hp
      simp only [Item.units] at r1 r2 ⊢
      refine ⟨?_, List.pairwise_append.2 ⟨r2, ih.2, ?_⟩⟩
      · intro u hu' c hc
        rcases List.mem_append.1 hu' with h | h
        · exact (r1 u h c hc).1
        · exact (ih.1 u h c hc).mono hle.1 hle.2 (Nat.le_refl _) (Nat.le_refl _)
      · intro u hu1 v hv c hc hc'
        exact (r1 u hu1 c hc).2 _ _ (ih.1 v hv c hc')

theorem finalSo_ge : ∀ (ts : List Ty) (sse int so : Nat), so ≤ finalSo ts sse int so
  | [], _, _, so => Nat.le_refl _
  | t :: ts, sse, int, so => by
    unfold finalSo
    cases h : callerPick t sse int with
    | none => exact finalSo_ge ts sse int so
    | some p =>
      have := finalSo_ge ts p.1 p.2 (if t.ind then allocOff so t else so)
      have h2 : so ≤ (if t.ind then allocOff so t else so) := by
        split
        · unfold allocOff; rw [alignUp_eight]; omega
        · exact Nat.le_refl _
      exact Nat.le_trans h2 this

theorem allocOff_bounds {so : Nat} {t : Ty} (h : so % 8 = 0) : so + alignUp (sizeOf t) 8 ≤ allocOff so t ∧ allocOff so t % 8 = 0 := by
  unfold allocOff
  rw [alignUp_eight, alignUp_eight]
  split <;> omega

theorem mkItems_locals {sp : Int} : ∀ (ts : List Ty) (i sse int off so : Nat), so % 8 = 0 →
    (∀ it ∈ mkItems i ts sse int off so, it.isRef = false ∧ it.Shape ∧
      (it.isLocal = true → so + it.lsz ≤ it.lo ∧ it.lo ≤ finalSo ts sse int so)) ∧
    (mkItems i ts sse int off so).Pairwise fun a b => a.isLocal = true → b.isLocal = true → ∀ c, memR (sp - 16 - a.lo) a.lsz c → ¬ memR (sp - 16 - b.lo) b.lsz c
  | [], i, sse, int, off, so, _ => by simp [mkItems]
  | t :: ts, i, sse, int, off, so, hso => by
    cases h : callerPick t sse int with
    | none =>
      rw [mkItems_none h]
      have ih := mkItems_locals (sp := sp) ts (i + 1) sse int (off + alignUp (sizeOf t) 8) so hso
      have hf : finalSo (t :: ts) sse int so = finalSo ts sse int so := by simp only [finalSo, h]
      have hl : Item.isLocal { i := i, t := t, pl := if t.ind then .whole off else .parts [(.stk off, 0, sizeOf t)] } = false := by
        cases hi : t.ind <;> simp [Item.isLocal, hi]
      rw [hf]
      refine ⟨?_, List.pairwise_cons.2 ⟨?_, ih.2⟩⟩
      · intro it hit
        rcases List.mem_cons.1 hit with rfl | h'
        · refine ⟨?_, ?_, fun h' => by rw [hl] at h'; cases h'⟩
          · cases hi : t.ind <;> simp [Item.isRef]
          · cases hi : t.ind <;> simp [Item.Shape, PartsOk, hi]
        · exact ih.1 it h'
      · intro b _ h' 
        rw [hl] at h'; cases h'
    | some p =>
      obtain ⟨sse', int'⟩ := p
      obtain ⟨lo, hi, hp⟩ := picked h
      rw [mkItems_some h hp]
      have hb := allocOff_bounds (t := t) hso
      have hf : finalSo (t :: ts) sse int so = finalSo ts sse' int' (if t.ind then allocOff so t else so) := by simp only [finalSo, h]
      have ih := mkItems_locals (sp := sp) ts (i + 1) sse' int' off (if t.ind then allocOff so t else so) (by split; exact hb.2; exact hso)
      rw [hf]
      have hle : so ≤ (if t.ind then allocOff so t else so) := by split <;> omega
      refine ⟨?_, List.pairwise_cons.2 ⟨?_, ih.2⟩⟩
      · intro it hit
        rcases List.mem_cons.1 hit with rfl | h'
        · refine ⟨rfl, ⟨regParts_ok hp, trivial⟩, fun hl => ?_⟩
          have hl' : t.ind = true := hl
          simp only [hl', if_true]
          exact ⟨hb.1, finalSo_ge ..⟩
        · obtain ⟨a, b, c⟩ := ih.1 it h'
          exact ⟨a, b, fun hl => by have := c hl; omega⟩
      · intro b hb' ha hbl c hc hc'
        have ha' : t.ind = true := ha
        have := (ih.1 b hb').2.2 hbl
        simp only [ha', if_true] at this
        obtain ⟨k, hk, rfl⟩ := hc
        obtain ⟨k', hk', e⟩ := hc'
        simp only [CL.mem.injEq] at e
        dsimp only at e hk
        omega

theorem mkItems_P : ∀ (ts : List Ty) (i sse int off so : Nat), ∀ it ∈ mkItems i ts sse int off so, it.P = allBytes it.t
  | [], i, sse, int, off, so => by simp [mkItems]
  | t :: ts, i, sse, int, off, so => by
    cases h : callerPick t sse int with
    | none =>
      rw [mkItems_none h]
      intro it hit
      rcases List.mem_cons.1 hit with rfl | h'
      · rfl
      · exact mkItems_P ts _ _ _ _ _ it h'
    | some p =>
      obtain ⟨sse', int'⟩ := p
      obtain ⟨lo, hi, hp⟩ := picked h
      rw [mkItems_some h hp]
      intro it hit
      rcases List.mem_cons.1 hit with rfl | h'
      · rfl
      · exact mkItems_P ts _ _ _ _ _ it h'

theorem good {sp : Int} {ts : List Ty} {so : Nat} {s0 : State} {adr : Nat → Int} {ec : Env} (hso : so % 8 = 0)
    (hs : Sent ts adr (Range (sp - 16 - finalSo ts 0 0 so) (sp + argBytes ts)) s0) :
    Good sp (keepS (Range (sp - 16 - finalSo ts 0 0 so) (sp + argBytes ts))) s0 adr ec (mkItems 0 ts 0 0 0 so) := by
  obtain ⟨l1, l2⟩ := mkItems_locals (sp := sp) ts 0 0 0 0 so hso
  obtain ⟨u1, u2⟩ := mkItems_units (sp := sp) ts 0 0 0 0 so
  have hr : ∀ it ∈ mkItems 0 ts 0 0 0 so, it.isRef = true → False := fun it hit h => by rw [(l1 it hit).1] at h; cases h
  have hrp : ∀ {R : Item → Item → Prop}, (mkItems 0 ts 0 0 0 so).Pairwise fun a b => a.isRef = true → b.isRef = true → R a b := by
    intro R
    refine List.Pairwise.imp_of_mem ?_ (mkItems_ids ts 0 0 0 0 so).2
    intro a b ha _ _ h; exact (hr a ha h).elim
  refine ⟨(mkItems_ids ..).2, fun it hit => (l1 it hit).2.1, fun it hit k hk => by rw [mkItems_P ts 0 0 0 0 so it hit] at hk; exact hk, fun it _ k => .inl ⟨_, _, rfl⟩, ?_, ?_, u2, ?_, fun it hit h => (hr it hit h).elim,
    hrp, fun it hit h => (hr it hit h).elim, fun it hit h => (hr it hit h).elim, l2, ?_, ?_, fun a _ _ b hb h => (hr b hb h).elim⟩
  · intro it hit ht
    have := hs.object it.i it.t ((mkItems_lists ts 0 0 0 0 so it.i it.t).2 ⟨it, hit, by omega, rfl⟩) ht
    exact ⟨this.1, fun k hk => .inr ⟨_, rfl, this.2 k hk⟩⟩
  · rintro c (⟨i, k, rfl⟩ | ⟨a, rfl, _⟩)
    · exact .inl ⟨i, k, rfl⟩
    · exact .inr ⟨a, rfl⟩
  · intro u hu c hc hk
    have hf := u1 u hu c hc
    rcases hk with ⟨i, k, rfl⟩ | ⟨a, rfl, ha⟩
    · exact cells_not_var hc
    · rcases hf with ⟨r, k', e, _⟩ | ⟨r, k', e, _⟩ | ⟨a', e, h1, h2⟩
      · simp at e
      · simp at e
      · simp only [CL.mem.injEq] at e
        have : (callerMark ts 0 0 0).2 = argBytes ts := rfl
        unfold Range at *; omega
  · rintro it hit hl c ⟨k, hk, rfl⟩ hS
    have := (l1 it hit).2.2 hl
    rcases hS with ⟨i, k', e⟩ | ⟨a, e, ha⟩
    · simp at e
    · simp only [CL.mem.injEq] at e; unfold Range at *; omega
  · rintro it hit hl u hu c ⟨k, hk, rfl⟩ hc
    have := (l1 it hit).2.2 hl
    rcases u1 u hu _ hc with ⟨r, k', e, _⟩ | ⟨r, k', e, _⟩ | ⟨a', e, h1, h2⟩
    · simp at e
    · simp at e
    · simp only [CL.mem.injEq] at e; omega

theorem copyOps_nil {ts : List Ty} {so : Nat} (hso : so % 8 = 0) : (mkItems 0 ts 0 0 0 so).flatMap Item.copyOps = [] := by
  rw [List.flatMap_eq_nil_iff]
  intro it hit
  have := ((mkItems_locals (sp := 0) ts 0 0 0 0 so hso).1 it hit).1
  unfold Item.copyOps
  split
  · rename_i h; unfold Item.isRef at this; rw [h] at this; cases this
  · rfl

/-- A call passes its arguments. -/
theorem args_ok {ts : List Ty} {so : Nat} {s0 : State} {adr : Nat → Int} {ec ee : Env} (hfp : ee.fp = ec.sp - 16) (hso : so % 8 = 0) :
    ∃ cops pops so', lowerArgs ts = some cops ∧ lowerParams ts so = some (pops, so') ∧
      (Sent ts adr (Range (ee.fp - so') (ec.sp + argBytes ts)) s0 →
        ∃ s1 s2, exec ec cops s0 = some s1 ∧ exec ee pops s1 = some s2 ∧ Received allBytes ts adr (Range (ee.fp - so') (ec.sp + argBytes ts)) s0 s2) := by
  refine ⟨(emitOrder ((mkItems 0 ts 0 0 0 so).flatMap Item.units)).flatMap U.ops, _, _, ?_, calleeTake_eq ts 0 0 0 0 so, ?_⟩
  · unfold lowerArgs
    dsimp only
    rw [callerReg_eq ts 0 0 0 0 so, callerStk_eq ts 0 0 0 0 so]
    simp only [Option.map_some, emitOrder, List.flatMap_append]
  · intro hs
    rw [hfp] at hs ⊢
    refine finish rfl hfp (fun i t => ?_) (good (ec := ec) hso hs) ?_ (mkItems_P ts 0 0 0 0 so) (emitOrder_perm _) ?_ rfl
    · have := mkItems_lists ts 0 0 0 0 so i t
      simpa using this
    · obtain ⟨l1, _⟩ := mkItems_locals (sp := ec.sp) ts 0 0 0 0 so hso
      obtain ⟨u1, _⟩ := mkItems_units (sp := ec.sp) ts 0 0 0 0 so
      rintro a (⟨it, hit, h, _⟩ | ⟨u, hu, h⟩ | ⟨it, hit, h, k, hk, e⟩)
      · rw [(l1 it hit).1] at h; cases h
      · rcases u1 u hu _ h with ⟨r, k', e, _⟩ | ⟨r, k', e, _⟩ | ⟨a', e, h1, h2⟩
        · simp at e
        · simp at e
        · simp only [CL.mem.injEq] at e
          have : (callerMark ts 0 0 0).2 = argBytes ts := rfl
          unfold Range at *; omega
      · have := (l1 it hit).2.2 h
        simp only [CL.mem.injEq] at e; unfold Range at *; omega
    · rw [copyOps_nil hso]; rfl

end Nature.Abi.Sysv
