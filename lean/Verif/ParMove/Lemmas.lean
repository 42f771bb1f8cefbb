import Verif.ParMove.Spec
/-! Proofs for C36. -/
namespace Nature.ParMove

theorem conflicts_iff (o : Opd) (d : Loc) : conflicts o d = true ↔ d ∈ o.locs := by
  have e : ∀ a b : Reg, (a = b) = (b = a) := fun a b => propext ⟨Eq.symm, Eq.symm⟩
  have e' : ∀ a b : Int, (a = b) = (b = a) := fun a b => propext ⟨Eq.symm, Eq.symm⟩
  cases o with
  | reg r => cases d with
    | reg q => simp [conflicts, sameLoc, operandRegs, Opd.locs, e q r]
    | stack t => simp [conflicts, sameLoc, Opd.locs]
  | stack x f => cases d with
    | reg q => simp [conflicts, sameLoc, operandRegs, Opd.locs]
    | stack t => simp [conflicts, sameLoc, Opd.locs, e' t x]
  | addr b i o c f => cases d with
    | reg q =>
      cases b <;> cases i <;> simp [conflicts, sameLoc, operandRegs, Opd.locs]
      · exact ⟨Eq.symm, Eq.symm⟩
      · exact ⟨Eq.symm, Eq.symm⟩
      · rename_i u v
        rw [e q u, e q v]
    | stack t => simp [conflicts, sameLoc, Opd.locs]
  | imm v => cases d <;> simp [conflicts, sameLoc, operandRegs, Opd.locs]

theorem conflicts2_iff (o : Option Opd) (d : Loc) : conflicts2 o d = true ↔ ∃ x, o = some x ∧ d ∈ x.locs := by
  cases o <;> simp [conflicts2, conflicts_iff]

theorem mem_reads (op : Op) (l : Loc) : l ∈ op.reads ↔ l ∈ op.first.locs ∨ ∃ x, op.second = some x ∧ l ∈ x.locs := by
  simp [Op.reads]

theorem eval_congr {V : Type} (M : Machine V) {σ σ' : State V} (o : Opd) (h : ∀ l ∈ o.locs, σ l = σ' l) : M.eval σ o = M.eval σ' o := by
  cases o with
  | reg r => exact h _ (by simp [Opd.locs])
  | stack s f => exact h _ (by simp [Opd.locs])
  | addr b i off sc f =>
    simp only [Machine.eval]
    congr 1
    · cases b with
      | none => rfl
      | some r => simp only [Option.map_some, Option.some.injEq]; exact h _ (by simp [Opd.locs])
    · cases i with
      | none => rfl
      | some r => simp only [Option.map_some, Option.some.injEq]; exact h _ (by simp [Opd.locs])
  | imm v => rfl

theorem value_congr {V : Type} (M : Machine V) {σ σ' : State V} (op : Op) (h : ∀ l ∈ op.reads, σ l = σ' l) : M.value σ op = M.value σ' op := by
  have h1 : M.eval σ op.first = M.eval σ' op.first := eval_congr M _ fun l hl => h l ((mem_reads op l).2 (.inl hl))
  have h2 : op.second.map (M.eval σ) = op.second.map (M.eval σ') := by
    cases e : op.second with
    | none => rfl
    | some x =>
      simp only [Option.map_some, Option.some.injEq]
      exact eval_congr M _ fun l hl => h l ((mem_reads op l).2 (.inr ⟨x, e, hl⟩))
  unfold Machine.value
  rw [h1, h2]

theorem run_append {V : Type} (M : Machine V) (σ : State V) (l : List Op) (op : Op) :
    M.run σ (l ++ [op]) = M.exec (M.run σ l) op := by simp [Machine.run]

theorem exec_same {V : Type} (M : Machine V) (σ : State V) (op : Op) : M.exec σ op op.out = M.value σ op := if_pos rfl
theorem exec_ne {V : Type} (M : Machine V) (σ : State V) (op : Op) {l : Loc} (h : l ≠ op.out) : M.exec σ op l = σ l := if_neg h

/-- What the proof needs of the moves: distinct outputs, no scratch register used, and
every instruction reads the output of at most one other. -/
structure OK (A : Arch) (moves : Nat → Op) (n : Nat) : Prop where
  inj : ∀ i j, i < n → j < n → (moves i).out = (moves j).out → i = j
  mill : ∀ j i i', j < n → i < n → i' < n → i ≠ j → i' ≠ j →
    (moves i).out ∈ (moves j).reads → (moves i').out ∈ (moves j).reads → i = i'
  both : ∀ j i, j < n → i < n → i ≠ j → (moves i).out ∈ (moves j).first.locs →
    ∀ o, (moves j).second = some o → (moves i).out ∈ o.locs → o = (moves j).first
  outT : ∀ i, i < n → ¬ Scratch A (moves i).out
  readT : ∀ i, i < n → ∀ l ∈ (moves i).reads, ¬ Scratch A l
  fstack : ∀ j i s, j < n → i < n → i ≠ j → ((moves j).first = .stack s true ∨ (moves j).second = some (.stack s true)) →
    (moves i).out ≠ .stack s
  unary : ∀ i, i < n → (moves i).code = .move → (moves i).second = none

variable {A : Arch} {moves : Nat → Op} {n : Nat} {V : Type} {M : Machine V} {σ0 : State V}

/-- Move `i` with its current source operands. -/
def cur (moves : Nat → Op) (s : St) (i : Nat) : Op := ⟨(moves i).code, s.src i, s.src2 i, (moves i).out⟩

/-- The state of the sequentialisation; `sv` is the move whose source is in a scratch register. -/
structure Inv (A : Arch) (moves : Nat → Op) (n : Nat) (M : Machine V) (σ0 : State V) (s : St) (sv : Option Nat) : Prop where
  moved : ∀ i, i < n → s.status i = .moved → M.run σ0 s.ops (moves i).out = M.value σ0 (moves i)
  other : ∀ l, ¬ Scratch A l → (∀ i, i < n → s.status i = .moved → (moves i).out ≠ l) → M.run σ0 s.ops l = σ0 l
  orig : ∀ j, j < n → s.status j ≠ .moved → sv ≠ some j → cur moves s j = moves j ∧
    ∀ i, i < n → s.status i = .moved → i ≠ j → (moves i).out ∉ (moves j).reads
  saved : ∀ j, sv = some j → j < n ∧ s.status j = .being ∧ M.value (M.run σ0 s.ops) (cur moves s j) = M.value σ0 (moves j) ∧
    ∀ i, i < n → i ≠ j → (moves i).out ∉ (cur moves s j).reads

/-- A source not yet saved still has its old value. -/
theorem Inv.fresh {s : St} {sv : Option Nat} (h : Inv A moves n M σ0 s sv) (ok : OK A moves n) {j : Nat} (hj : j < n)
    (hm : s.status j ≠ .moved) (hs : sv ≠ some j) : ∀ l ∈ (moves j).reads, M.run σ0 s.ops l = σ0 l := by
  intro l hl
  obtain ⟨_, h2⟩ := h.orig j hj hm hs
  refine h.other l (ok.readT j hj l hl) fun i hi him e => ?_
  by_cases hij : i = j
  · subst hij; exact hm him
  · exact h2 i hi him hij (e ▸ hl)

theorem Inv.value {s : St} {sv : Option Nat} (h : Inv A moves n M σ0 s sv) (ok : OK A moves n) {j : Nat} (hj : j < n)
    (hm : s.status j ≠ .moved) : M.value (M.run σ0 s.ops) (cur moves s j) = M.value σ0 (moves j) := by
  by_cases hs : sv = some j
  · exact (h.saved j hs).2.2.1
  · rw [(h.orig j hj hm hs).1]
    exact value_congr M _ (h.fresh ok hj hm hs)

theorem set_same {α : Type} (f : Nat → α) (i : Nat) (a : α) : set f i a i = a := if_pos rfl
theorem set_ne {α : Type} (f : Nat → α) {i j : Nat} (a : α) (h : j ≠ i) : set f i a j = f j := if_neg h

/-- Emitting move `i` when nothing pending reads its output. -/
theorem Inv.emit {s : St} {sv : Option Nat} (h : Inv A moves n M σ0 s sv) (ok : OK A moves n) {i : Nat} (hi : i < n)
    (hm : s.status i ≠ .moved) (hf : ∀ j, j < n → j ≠ i → s.status j ≠ .moved → (moves i).out ∉ (cur moves s j).reads) :
    Inv A moves n M σ0 (emit moves i s) (if sv = some i then none else sv) := by
  have hrun : M.run σ0 (ParMove.emit moves i s).ops = M.exec (M.run σ0 s.ops) (cur moves s i) := run_append ..
  have hcur : ∀ j, cur moves (ParMove.emit moves i s) j = cur moves s j := fun _ => rfl
  have hst : ∀ j, (ParMove.emit moves i s).status j = if j = i then .moved else s.status j := fun _ => rfl
  constructor
  · intro j hj hmj
    rw [hrun]
    by_cases hji : j = i
    · subst hji
      exact (exec_same M _ (cur moves s j)).trans (h.value ok hj hm)
    · rw [hst, if_neg hji] at hmj
      rw [exec_ne M _ (cur moves s i) (fun e => hji (ok.inj j i hj hi e))]
      exact h.moved j hj hmj
  · intro l hl hn
    rw [hrun]
    rw [exec_ne M _ (cur moves s i) (fun e => hn i hi (by rw [hst, if_pos rfl]) (Eq.symm e))]
    refine h.other l hl fun j hj hmj => hn j hj ?_
    rw [hst]; split
    · rfl
    · exact hmj
  · intro j hj hmj hs
    rw [hcur]
    have hji : j ≠ i := by intro e; rw [hst, if_pos e] at hmj; exact hmj rfl
    rw [hst, if_neg hji] at hmj
    have hs' : sv ≠ some j := by
      intro e
      rw [e, if_neg (by intro e2; exact hji (Option.some.inj e2))] at hs
      exact hs rfl
    obtain ⟨h1, h2⟩ := h.orig j hj hmj hs'
    refine ⟨h1, fun k hk hkm hkj => ?_⟩
    by_cases hki : k = i
    · subst hki
      have := hf j hj hji hmj
      rwa [h1] at this
    · rw [hst, if_neg hki] at hkm
      exact h2 k hk hkm hkj
  · intro j hs
    have hs' : sv = some j ∧ j ≠ i := by
      by_cases e : sv = some i
      · rw [if_pos e] at hs; cases hs
      · rw [if_neg e] at hs
        exact ⟨hs, fun e2 => e (e2 ▸ hs)⟩
    obtain ⟨h1, h2, h3, h4⟩ := h.saved j hs'.1
    rw [hcur, hst, if_neg hs'.2]
    refine ⟨h1, h2, ?_, h4⟩
    rw [hrun, ← h3]
    refine value_congr M _ fun l hl => ?_
    refine exec_ne _ _ _ ?_
    intro e
    exact h4 i hi (fun e2 => hs'.2 e2.symm) (e ▸ hl)

theorem tmp_scratch (ok : OK A moves n) {j i : Nat} (hj : j < n) (hi : i < n) (hij : i ≠ j) {o : Opd}
    (ho : (moves j).first = o ∨ (moves j).second = some o) (hc : (moves i).out ∈ o.locs) : Scratch A (.reg (tmpOf A o)) := by
  cases o with
  | reg r => by_cases hr : r.float = true <;> simp [tmpOf, Scratch, hr]
  | stack s f =>
    cases f with
    | false => simp [tmpOf, Scratch]
    | true => exact absurd (by simpa [Opd.locs] using hc) (ok.fstack j i s hj hi hij ho)
  | addr b x off sc f => cases f <;> simp [tmpOf, Scratch]
  | imm v => simp [Opd.locs] at hc

/-- Saving the source of move `r`. -/
theorem Inv.save {s : St} (h : Inv A moves n M σ0 s none) (ok : OK A moves n) {r i : Nat} (hr : r < n) (hi : i < n) (hir : i ≠ r)
    (hb : s.status r = .being) {fst snd : Bool} (hf : fst = conflicts (s.src r) (moves i).out)
    (hs : snd = conflicts2 (s.src2 r) (moves i).out) (hc : (fst || snd) = true) :
    Inv A moves n M σ0 (save A moves r fst snd s) (some r) := by
  have hm : s.status r ≠ .moved := by rw [hb]; exact Status.noConfusion
  obtain ⟨hcur, hor⟩ := h.orig r hr hm (by simp)
  have e1 : s.src r = (moves r).first := congrArg Op.first hcur
  have e2 : s.src2 r = (moves r).second := congrArg Op.second hcur
  have hfresh := h.fresh ok hr hm (by simp)
  rw [e1] at hf
  rw [e2] at hs
  generalize ho : (if fst then (moves r).first else ((moves r).second.getD (.imm 0))) = o
  -- the operand saved conflicts with the output of `i`
  have hop : ((moves r).first = o ∨ (moves r).second = some o) ∧ (moves i).out ∈ o.locs := by
    cases fst with
    | true =>
      simp only [if_true] at ho
      exact ⟨.inl ho, by rw [← ho]; exact (conflicts_iff _ _).1 hf.symm⟩
    | false =>
      simp only [Bool.false_eq_true, if_false] at ho
      rw [Bool.false_or] at hc
      rw [hc] at hs
      obtain ⟨x, hx, hl⟩ := (conflicts2_iff _ _).1 hs.symm
      rw [hx] at ho
      simp only [Option.getD_some] at ho
      subst ho
      exact ⟨.inr hx, hl⟩
  have hT := tmp_scratch ok hr hi hir hop.1 hop.2
  have hread : ∀ l ∈ o.locs, l ∈ (moves r).reads := by
    intro l hl
    rw [mem_reads]
    rcases hop.1 with e | e
    · exact .inl (e ▸ hl)
    · exact .inr ⟨o, e, hl⟩
  have hread1 : (moves i).out ∈ (moves r).reads := hread _ hop.2
  have hops : (ParMove.save A moves r fst snd s).ops = s.ops ++ [⟨.move, o, none, .reg (tmpOf A o)⟩] := by
    simp only [ParMove.save, ho]
  have hrun : ∀ l, M.run σ0 (ParMove.save A moves r fst snd s).ops l =
      if l = .reg (tmpOf A o) then M.eval σ0 o else M.run σ0 s.ops l := by
    intro l
    rw [hops, run_append]
    simp only [Machine.exec, Machine.value]
    rw [eval_congr M o fun l hl => hfresh l (hread l hl)]
  have hst : (ParMove.save A moves r fst snd s).status = s.status := rfl
  have hother : ∀ l, ¬ Scratch A l → M.run σ0 (ParMove.save A moves r fst snd s).ops l = M.run σ0 s.ops l := by
    intro l hl
    rw [hrun, if_neg]
    intro e; subst e; exact hl hT
  have hsrc : ∀ j, j ≠ r → (ParMove.save A moves r fst snd s).src j = s.src j := by
    intro j hj; simp only [ParMove.save]; cases fst
    · rfl
    · simp only [if_true]; exact set_ne _ _ hj
  have hsrc2 : ∀ j, j ≠ r → (ParMove.save A moves r fst snd s).src2 j = s.src2 j := by
    intro j hj; simp only [ParMove.save]; cases snd
    · rfl
    · simp only [if_true]; exact set_ne _ _ hj
  have hsr : (ParMove.save A moves r fst snd s).src r = if fst then .reg (tmpOf A o) else (moves r).first := by
    simp only [ParMove.save, ho]; cases fst
    · exact e1
    · simp only [if_true]; exact set_same ..
  have hsr2 : (ParMove.save A moves r fst snd s).src2 r = if snd then some (.reg (tmpOf A o)) else (moves r).second := by
    simp only [ParMove.save, ho]; cases snd
    · exact e2
    · simp only [if_true]; exact set_same ..
  have hreadsT : ∀ l ∈ (moves r).reads, M.run σ0 (ParMove.save A moves r fst snd s).ops l = σ0 l := by
    intro l hl
    rw [hother l (ok.readT r hr l hl)]
    exact hfresh l hl
  have htmp : M.run σ0 (ParMove.save A moves r fst snd s).ops (.reg (tmpOf A o)) = M.eval σ0 o := by
    rw [hrun, if_pos rfl]
  constructor
  · intro j hj hmj
    rw [hother _ (ok.outT j hj)]
    exact h.moved j hj hmj
  · intro l hl hn
    rw [hother l hl]
    exact h.other l hl hn
  · intro j hj hmj hsj
    have hjr : j ≠ r := fun e => hsj (by rw [e])
    obtain ⟨h1, h2⟩ := h.orig j hj hmj (by simp)
    refine ⟨?_, h2⟩
    rw [← h1]; simp only [cur, hsrc j hjr, hsrc2 j hjr]
  · intro j hj
    have hj : r = j := Option.some.inj hj
    subst hj
    refine ⟨hr, hb, ?_, ?_⟩
    · -- same value
      have v1 : M.eval (M.run σ0 (ParMove.save A moves r fst snd s).ops) ((ParMove.save A moves r fst snd s).src r) = M.eval σ0 (moves r).first := by
        rw [hsr]
        cases fst with
        | false =>
          exact eval_congr M _ fun l hl => hreadsT l ((mem_reads _ _).2 (.inl hl))
        | true =>
          simp only [if_true] at ho ⊢
          rw [ho]; exact htmp
      have v2 : ((ParMove.save A moves r fst snd s).src2 r).map (M.eval (M.run σ0 (ParMove.save A moves r fst snd s).ops)) = (moves r).second.map (M.eval σ0) := by
        rw [hsr2]
        cases snd with
        | false =>
          simp only [Bool.false_eq_true, if_false]
          cases e : (moves r).second with
          | none => rfl
          | some x =>
            simp only [Option.map_some, Option.some.injEq]
            exact eval_congr M _ fun l hl => hreadsT l ((mem_reads _ _).2 (.inr ⟨x, e, hl⟩))
        | true =>
          obtain ⟨x, hx, hl⟩ := (conflicts2_iff _ _).1 hs.symm
          simp only [if_true]
          rw [hx, Option.map_some, Option.map_some]
          congr 1
          show M.run σ0 _ (.reg (tmpOf A o)) = _
          rw [htmp]
          cases fst with
          | true =>
            simp only [if_true] at ho
            rw [← ho, ok.both r i hr hi hir ((conflicts_iff _ _).1 hf.symm) x hx hl]
          | false =>
            simp only [Bool.false_eq_true, if_false] at ho
            rw [hx] at ho
            simp only [Option.getD_some] at ho
            rw [ho]
      unfold Machine.value
      simp only [cur]
      rw [v1, v2]
    · intro k hk hkr hmem
      rw [mem_reads] at hmem
      simp only [cur] at hmem
      rw [hsr, hsr2] at hmem
      have hT' : (moves k).out ≠ .reg (tmpOf A o) := by
        intro e; exact ok.outT k hk (e ▸ hT)
      rcases hmem with hmem | ⟨x, hx, hmem⟩
      · cases fst with
        | true => exact hT' (by simpa [Opd.locs] using hmem)
        | false =>
          simp only [Bool.false_eq_true, if_false] at hmem
          have := ok.mill r k i hr hk hi hkr hir ((mem_reads _ _).2 (.inl hmem)) hread1
          subst this
          rw [(conflicts_iff _ _).2 hmem] at hf
          cases hf
      · cases snd with
        | true =>
          simp only [if_true, Option.some.injEq] at hx
          subst hx
          exact hT' (by simpa [Opd.locs] using hmem)
        | false =>
          simp only [Bool.false_eq_true, if_false] at hx
          have := ok.mill r k i hr hk hi hkr hir ((mem_reads _ _).2 (.inr ⟨x, hx, hmem⟩)) hread1
          subst this
          rw [(conflicts2_iff _ _).2 ⟨x, hx, hmem⟩] at hs
          cases hs

/-! ### The recursion -/

/-- The number of moves not started. -/
def cnt (n : Nat) (s : St) : Nat := (List.range n).countP fun i => s.status i == .toMove

theorem cnt_mono {s s' : St} (h : ∀ i, s'.status i = .toMove → s.status i = .toMove) : cnt n s' ≤ cnt n s := by
  unfold cnt
  apply List.countP_mono_left
  intro i _ hi
  simp only [beq_iff_eq] at hi ⊢
  exact h i hi

theorem countP_lt {l : List Nat} {p q : Nat → Bool} (h : ∀ x ∈ l, p x = true → q x = true) {a : Nat} (ha : a ∈ l)
    (hq : q a = true) (hp : p a = false) : l.countP p < l.countP q := by
  induction l with
  | nil => cases ha
  | cons x r ih =>
    have hr : r.countP p ≤ r.countP q := List.countP_mono_left fun y hy => h y (List.mem_cons_of_mem _ hy)
    rcases List.mem_cons.1 ha with e | e
    · subst e
      rw [List.countP_cons_of_neg (by simp [hp]), List.countP_cons_of_pos hq]
      omega
    · have := ih (fun y hy => h y (List.mem_cons_of_mem _ hy)) e
      have hx := h x (List.mem_cons_self ..)
      by_cases hpx : p x = true
      · rw [List.countP_cons_of_pos hpx, List.countP_cons_of_pos (hx hpx)]; omega
      · rw [List.countP_cons_of_neg hpx]
        have : r.countP q ≤ (x :: r).countP q := by
          by_cases hqx : q x = true
          · rw [List.countP_cons_of_pos hqx]; omega
          · rw [List.countP_cons_of_neg hqx]; omega
        omega

theorem cnt_set {s : St} {i : Nat} (hi : i < n) (h : s.status i = .toMove) :
    cnt n { s with status := set s.status i .being } < cnt n s := by
  unfold cnt
  refine countP_lt (fun x _ hx => ?_) (List.mem_range.2 hi) (by simp [h]) (by simp [set])
  simp only [beq_iff_eq] at hx ⊢
  by_cases e : x = i
  · rw [e] at hx; simp [set] at hx
  · rwa [show set s.status i Status.being x = s.status x from set_ne _ _ e] at hx

/-- Every started move other than `r` and `x` reads the output of a started move other than `x`. -/
def ClosedBut (moves : Nat → Op) (n : Nat) (s : St) (r : Nat) (x : Option Nat) : Prop :=
  ∀ b, b < n → s.status b = .being → some b ≠ x → b = r ∨
    ∃ p, p < n ∧ p ≠ b ∧ some p ≠ x ∧ s.status p = .being ∧ (moves p).out ∈ (moves b).reads

/-- How a call changes the state. -/
structure Step (s s' : St) (sv sv' : Option Nat) (r : Nat) : Prop where
  being : ∀ b, s'.status b = .being ↔ s.status b = .being
  moved : ∀ b, s.status b = .moved → s'.status b = .moved
  todo : ∀ b, s'.status b = .toMove → s.status b = .toMove
  keep : ∀ q, sv = some q → sv' = some q
  root : ∀ q, sv' = some q → q = r

theorem Step.refl (s : St) {sv : Option Nat} {r : Nat} (h : ∀ q, sv = some q → q = r) : Step s s sv sv r :=
  ⟨fun _ => Iff.rfl, fun _ h => h, fun _ h => h, fun _ h => h, h⟩

theorem Step.trans {s s' s'' : St} {sv sv' sv'' : Option Nat} {r : Nat} (h : Step s s' sv sv' r) (h' : Step s' s'' sv' sv'' r) : Step s s'' sv sv'' r :=
  ⟨fun b => (h'.being b).trans (h.being b), fun b hb => h'.moved b (h.moved b hb), fun b hb => h.todo b (h'.todo b hb),
    fun q hq => h'.keep q (h.keep q hq), h'.root⟩

theorem ClosedBut.step {s s' : St} {sv sv' : Option Nat} {r : Nat} {x : Option Nat} (h : ClosedBut moves n s r x) (hs : Step s s' sv sv' r) :
    ClosedBut moves n s' r x := by
  intro b hb hbb hbx
  rcases h b hb ((hs.being b).1 hbb) hbx with e | ⟨p, h1, h2, h3, h4, h5⟩
  · exact .inl e
  · exact .inr ⟨p, h1, h2, h3, (hs.being p).2 h4, h5⟩

/-- What a call on move `i` must achieve. -/
def RecSpec (A : Arch) (moves : Nat → Op) (n : Nat) (M : Machine V) (σ0 : State V) (rec : Nat → St → Option St) (d : Nat) : Prop :=
  ∀ (i : Nat) (s : St) (sv : Option Nat) (r : Nat), i < n → s.status i = .toMove → Inv A moves n M σ0 s sv → (∀ q, sv = some q → q = r) →
    ClosedBut moves n s r none →
    (i = r ∨ ∃ p, p < n ∧ p ≠ i ∧ s.status p = .being ∧ (moves p).out ∈ (moves i).reads) → cnt n s < d →
    ∃ s' sv', rec i s = some s' ∧ Inv A moves n M σ0 s' sv' ∧ Step s s' sv sv' r ∧
      (s'.status i = .moved ∨ ((moves i).code = .move ∧ sameLoc (s.src i) (moves i).out = true ∧ s' = s))

theorem sameLoc_locs {o : Opd} {d : Loc} (h : sameLoc o d = true) : o.locs = [d] := by
  cases o <;> cases d <;> simp [sameLoc] at h <;> simp [Opd.locs, h]

/-- Nothing seen so far by the loop of move `i` still needs the output of `i`. -/
def Done (moves : Nat → Op) (i j : Nat) (s : St) : Prop :=
  ∀ k, k < j → k ≠ i → s.status k = .moved ∨ (moves i).out ∉ (cur moves s k).reads

theorem Done.step {s s' : St} {sv sv' : Option Nat} {r i j : Nat} (hi : i < n) (hj : j ≤ n) (h : Done moves i j s)
    (inv : Inv A moves n M σ0 s sv) (inv' : Inv A moves n M σ0 s' sv') (st : Step s s' sv sv' r) : Done moves i j s' := by
  intro k hk hki
  by_cases hm : s'.status k = .moved
  · exact .inl hm
  refine .inr ?_
  by_cases hs : sv' = some k
  · exact (inv'.saved k hs).2.2.2 i hi (fun e => hki e.symm)
  · have hm0 : s.status k ≠ .moved := fun e => hm (st.moved k e)
    have hs0 : sv ≠ some k := fun e => hs (st.keep k e)
    rcases h k hk hki with e | e
    · exact absurd e hm0
    · rw [(inv'.orig k (by omega) hm hs).1]
      rwa [(inv.orig k (by omega) hm0 hs0).1] at e

theorem inner_spec {rec : Nat → St → Option St} {d : Nat} (ok : OK A moves n) (hrec : RecSpec A moves n M σ0 rec d)
    {i j r : Nat} {s : St} {sv : Option Nat} (hi : i < n) (hj : j < n) (hb : s.status i = .being) (inv : Inv A moves n M σ0 s sv)
    (hsv : ∀ q, sv = some q → q = r) (hcl : ClosedBut moves n s r (some i))
    (hpi : i = r ∨ ∃ p, p < n ∧ p ≠ i ∧ s.status p = .being ∧ (moves p).out ∈ (moves i).reads) (hc : cnt n s < d) :
    ∃ s' sv', inner A moves rec i j s = some s' ∧ Inv A moves n M σ0 s' sv' ∧ Step s s' sv sv' r ∧
      (j ≠ i → s'.status j = .moved ∨ (moves i).out ∉ (cur moves s' j).reads) := by
  unfold inner
  by_cases hji : j = i
  · rw [if_pos hji]
    exact ⟨s, sv, rfl, inv, .refl s hsv, fun h => absurd hji h⟩
  rw [if_neg hji]
  simp only
  have hreads : (conflicts (s.src j) (moves i).out || conflicts2 (s.src2 j) (moves i).out) = true ↔ (moves i).out ∈ (cur moves s j).reads := by
    rw [Bool.or_eq_true, conflicts_iff, conflicts2_iff, mem_reads]; exact Iff.rfl
  by_cases hcf : (conflicts (s.src j) (moves i).out || conflicts2 (s.src2 j) (moves i).out) = true
  · rw [if_pos hcf]
    have hmem := hreads.1 hcf
    have hns : sv ≠ some j := fun e => (inv.saved j e).2.2.2 i hi (fun e => hji e.symm) hmem
    cases hst : s.status j with
    | toMove =>
      simp only
      have hcj := (inv.orig j hj (by rw [hst]; exact Status.noConfusion) hns).1
      rw [hcj] at hmem
      have hfull : ClosedBut moves n s r none := by
        intro b hbn hbb _
        by_cases hbi : b = i
        · subst hbi
          rcases hpi with e | ⟨p, h1, h2, h3, h4⟩
          · exact .inl e
          · exact .inr ⟨p, h1, h2, by simp, h3, h4⟩
        · rcases hcl b hbn hbb (fun e => hbi (Option.some.inj e)) with e | ⟨p, h1, h2, _, h4, h5⟩
          · exact .inl e
          · exact .inr ⟨p, h1, h2, by simp, h4, h5⟩
      obtain ⟨s', sv', e, inv', st, hres⟩ := hrec j s sv r hj hst inv hsv hfull (.inr ⟨i, hi, fun e => hji e.symm, hb, hmem⟩) hc
      refine ⟨s', sv', e, inv', st, fun _ => ?_⟩
      rcases hres with h | ⟨h1, h2, h3⟩
      · exact .inl h
      · exfalso
        have hf : s.src j = (moves j).first := congrArg Op.first hcj
        rw [hf] at h2
        rw [mem_reads, sameLoc_locs h2, ok.unary j hj h1] at hmem
        simp at hmem
        exact hji (ok.inj j i hj hi hmem.symm)
    | being =>
      simp only
      have hm : s.status j ≠ .moved := by rw [hst]; exact Status.noConfusion
      have hcj := (inv.orig j hj hm hns).1
      have hjr : j = r := by
        rcases hcl j hj hst (fun e => hji (Option.some.inj e)) with e | ⟨p, h1, h2, h3, h4, h5⟩
        · exact e
        · rw [hcj] at hmem
          exact absurd (congrArg some (ok.mill j p i hj h1 hi h2 (fun e => hji e.symm) h5 hmem)) h3
      have hnone : sv = none := by
        cases e : sv with
        | none => rfl
        | some q =>
          have := hsv q e
          exact absurd (by rw [e, this, hjr]) hns
      subst hnone
      have inv' := inv.save ok hj hi (fun e => hji e.symm) hst rfl rfl hcf
      refine ⟨_, some j, rfl, inv', ⟨fun _ => Iff.rfl, fun _ h => h, fun _ h => h, fun q h => by simp at h, fun q h => ?_⟩, fun _ => .inr ?_⟩
      · rw [← Option.some.inj h]; exact hjr
      · exact (inv'.saved j rfl).2.2.2 i hi (fun e => hji e.symm)
    | moved => exact ⟨s, sv, rfl, inv, .refl s hsv, fun _ => .inl hst⟩
  · rw [if_neg hcf]
    exact ⟨s, sv, rfl, inv, .refl s hsv, fun _ => .inr fun hmem => hcf (hreads.2 hmem)⟩

theorem innerLoop_spec {rec : Nat → St → Option St} {d : Nat} (ok : OK A moves n) (hrec : RecSpec A moves n M σ0 rec d)
    {i r : Nat} (hi : i < n) (k j : Nat) (hk : j + k = n) (s : St) (sv : Option Nat) (hb : s.status i = .being) (inv : Inv A moves n M σ0 s sv)
    (hsv : ∀ q, sv = some q → q = r) (hcl : ClosedBut moves n s r (some i))
    (hpi : i = r ∨ ∃ p, p < n ∧ p ≠ i ∧ s.status p = .being ∧ (moves p).out ∈ (moves i).reads) (hc : cnt n s < d)
    (hd : Done moves i j s) :
    ∃ s' sv', innerLoop A moves rec i k j s = some s' ∧ Inv A moves n M σ0 s' sv' ∧ Step s s' sv sv' r ∧ Done moves i n s' := by
  induction k generalizing j s sv with
  | zero =>
    have : j = n := by omega
    subst this
    exact ⟨s, sv, rfl, inv, .refl s hsv, hd⟩
  | succ k ih =>
    obtain ⟨s1, sv1, e1, inv1, st1, hj1⟩ := inner_spec ok hrec hi (show j < n by omega) hb inv hsv hcl hpi hc
    have hpi1 : i = r ∨ ∃ p, p < n ∧ p ≠ i ∧ s1.status p = .being ∧ (moves p).out ∈ (moves i).reads := by
      rcases hpi with e | ⟨p, h1, h2, h3, h4⟩
      · exact .inl e
      · exact .inr ⟨p, h1, h2, (st1.being p).2 h3, h4⟩
    have hd1 : Done moves i (j + 1) s1 := by
      have := hd.step hi (by omega) inv inv1 st1
      intro x hx hxi
      by_cases hxj : x = j
      · subst hxj; exact hj1 hxi
      · exact this x (by omega) hxi
    obtain ⟨s2, sv2, e2, inv2, st2, hd2⟩ := ih (j + 1) (by omega) s1 sv1 ((st1.being i).2 hb) inv1 st1.root (hcl.step st1) hpi1
      (Nat.lt_of_le_of_lt (cnt_mono st1.todo) hc) hd1
    refine ⟨s2, sv2, ?_, inv2, st1.trans st2, hd2⟩
    rw [innerLoop, e1]
    exact e2

theorem moveOne_spec (ok : OK A moves n) (d : Nat) : RecSpec A moves n M σ0 (moveOne A moves n d) d := by
  induction d with
  | zero => intro i s sv r hi ht inv hsv hcl hpi hc; omega
  | succ d ih =>
    intro i s sv r hi ht inv hsv hcl hpi hc
    rw [moveOne]
    by_cases hskip : (decide ((moves i).code = .move) && sameLoc (s.src i) (moves i).out) = true
    · rw [if_pos hskip]
      simp only [Bool.and_eq_true, decide_eq_true_eq] at hskip
      exact ⟨s, sv, rfl, inv, .refl s hsv, .inr ⟨hskip.1, hskip.2, rfl⟩⟩
    rw [if_neg hskip]
    have hsi : sv ≠ some i := by
      intro e
      have := (inv.saved i e).2.1
      rw [ht] at this; cases this
    have hst : ∀ b, (set s.status i Status.being) b = if b = i then .being else s.status b := fun _ => rfl
    have inv1 : Inv A moves n M σ0 { s with status := set s.status i .being } sv := by
      have hmv : ∀ b, set s.status i Status.being b = .moved ↔ s.status b = .moved := by
        intro b; rw [hst]; split
        · rename_i e; rw [e, ht]; simp
        · exact Iff.rfl
      constructor
      · intro j hj hm; exact inv.moved j hj ((hmv j).1 hm)
      · intro l hl hn; exact inv.other l hl fun j hj hm => hn j hj ((hmv j).2 hm)
      · intro j hj hm hs
        obtain ⟨h1, h2⟩ := inv.orig j hj (fun e => hm ((hmv j).2 e)) hs
        exact ⟨h1, fun k hk hkm => h2 k hk ((hmv k).1 hkm)⟩
      · intro j hs
        obtain ⟨h1, h2, h3⟩ := inv.saved j hs
        refine ⟨h1, ?_, h3⟩
        show set s.status i Status.being j = _
        rw [hst]; split
        · rfl
        · exact h2
    have hcl1 : ClosedBut moves n { s with status := set s.status i .being } r (some i) := by
      intro b hb hbb hbi
      have hbi : b ≠ i := fun e => hbi (by rw [e])
      have hbb : s.status b = .being := by
        have : set s.status i Status.being b = .being := hbb
        rwa [hst, if_neg hbi] at this
      rcases hcl b hb hbb (by simp) with e | ⟨p, h1, h2, _, h4, h5⟩
      · exact .inl e
      · have hpi : p ≠ i := by intro e; rw [e, ht] at h4; cases h4
        refine .inr ⟨p, h1, h2, fun e => hpi (Option.some.inj e), ?_, h5⟩
        show set s.status i Status.being p = _
        rw [hst, if_neg hpi]; exact h4
    have hpi1 : i = r ∨ ∃ p, p < n ∧ p ≠ i ∧ (set s.status i Status.being) p = .being ∧ (moves p).out ∈ (moves i).reads := by
      rcases hpi with e | ⟨p, h1, h2, h3, h4⟩
      · exact .inl e
      · exact .inr ⟨p, h1, h2, by rw [hst, if_neg h2]; exact h3, h4⟩
    have hc1 := cnt_set hi ht
    obtain ⟨s2, sv2, e2, inv2, st2, hd2⟩ := innerLoop_spec ok ih hi n 0 (by omega) _ sv (by show set s.status i Status.being i = _; rw [hst, if_pos rfl])
      inv1 hsv hcl1 hpi1 (by omega) (fun k hk => by omega)
    rw [e2]
    simp only [Option.bind_some]
    have hbi2 : s2.status i = .being := (st2.being i).2 (by show set s.status i Status.being i = _; rw [hst, if_pos rfl])
    have inv3 := inv2.emit ok hi (by rw [hbi2]; exact Status.noConfusion) (fun j hj hji hm => by
      rcases hd2 j hj hji with h | h
      · exact absurd h hm
      · exact h)
    have hst3 : ∀ b, (emit moves i s2).status b = if b = i then .moved else s2.status b := fun _ => rfl
    refine ⟨_, _, rfl, inv3, ?_, .inl (by rw [hst3, if_pos rfl])⟩
    constructor
    · intro b
      rw [hst3]
      by_cases e : b = i
      · rw [if_pos e, e, ht]; simp
      · rw [if_neg e, st2.being b]
        show set s.status i Status.being b = _ ↔ _
        rw [hst, if_neg e]
    · intro b hb
      rw [hst3]; split
      · rfl
      · rename_i e
        refine st2.moved b ?_
        show set s.status i Status.being b = _
        rw [hst, if_neg e]; exact hb
    · intro b hb
      rw [hst3] at hb
      by_cases e : b = i
      · rw [if_pos e] at hb; cases hb
      · rw [if_neg e] at hb
        have : set s.status i Status.being b = _ := st2.todo b hb
        rwa [hst, if_neg e] at this
    · intro q hq
      have := st2.keep q hq
      have hqi : q ≠ i := fun e => hsi (e ▸ hq)
      rw [if_neg (by rw [this]; exact fun e => hqi (Option.some.inj e))]
      exact this
    · intro q hq
      by_cases e : sv2 = some i
      · rw [if_pos e] at hq; cases hq
      · rw [if_neg e] at hq; exact st2.root q hq

theorem outerLoop_spec (ok : OK A moves n) (k i : Nat) (hk : i + k = n) (s : St) (inv : Inv A moves n M σ0 s none)
    (hb : ∀ b, s.status b ≠ .being)
    (hd : ∀ j, j < i → s.status j = .moved ∨ ((moves j).code = .move ∧ sameLoc (moves j).first (moves j).out = true)) :
    ∃ s', outerLoop A moves n k i s = some s' ∧ Inv A moves n M σ0 s' none ∧
      ∀ j, j < n → s'.status j = .moved ∨ ((moves j).code = .move ∧ sameLoc (moves j).first (moves j).out = true) := by
  induction k generalizing i s with
  | zero =>
    have : i = n := by omega
    subst this
    exact ⟨s, rfl, inv, hd⟩
  | succ k ih =>
    rw [outerLoop]
    cases hst : s.status i with
    | toMove =>
      simp only
      have hclosed : ClosedBut moves n s i none := fun b _ hbb => absurd hbb (hb b)
      have hcn : cnt n s < n + 1 := by
        unfold cnt
        have := List.countP_le_length (l := List.range n) (p := fun i => s.status i == .toMove)
        simp at this ⊢
        omega
      obtain ⟨s1, sv1, e1, inv1, st1, hres⟩ := moveOne_spec ok (n + 1) i s none i (by omega) hst inv (by simp) hclosed (.inl rfl) hcn
      have hb1 : ∀ b, s1.status b ≠ .being := fun b h => hb b ((st1.being b).1 h)
      have hsv1 : sv1 = none := by
        cases e : sv1 with
        | none => rfl
        | some q => exact absurd (inv1.saved q e).2.1 (hb1 q)
      subst hsv1
      rw [e1]
      simp only [Option.bind_some]
      refine ih (i + 1) (by omega) s1 inv1 hb1 fun j hj => ?_
      by_cases hji : j = i
      · subst hji
        rcases hres with h | ⟨h1, h2, _⟩
        · exact .inl h
        · refine .inr ⟨h1, ?_⟩
          have := (inv.orig j (by omega) (by rw [hst]; exact Status.noConfusion) (by simp)).1
          rw [show s.src j = (moves j).first from congrArg Op.first this] at h2
          exact h2
      · rcases hd j (by omega) with h | h
        · exact .inl (st1.moved j h)
        · exact .inr h
    | being => exact absurd hst (hb i)
    | moved =>
      simp only
      refine ih (i + 1) (by omega) s inv hb fun j hj => ?_
      by_cases hji : j = i
      · subst hji; exact .inl hst
      · exact hd j (by omega)

theorem sameLoc_eval {o : Opd} {d : Loc} (h : sameLoc o d = true) (σ : State V) : M.eval σ o = σ d := by
  cases o <;> cases d <;> simp [sameLoc] at h <;> simp [Machine.eval, h]

theorem parallel_ok (l : List Op) (ok : OK A (fun i => l.getD i ⟨.move, .imm 0, none, .stack 0⟩) l.length) :
    ∃ out, parallelMoves A l = some out ∧ ∀ (V : Type) (M : Machine V) (σ : State V), Simultaneous M (Scratch A) l σ (M.run σ out) := by
  have key : ∀ (V : Type) (M : Machine V) (σ : State V), ∃ out, parallelMoves A l = some out ∧ Simultaneous M (Scratch A) l σ (M.run σ out) := by
    intro V M σ
    have inv0 : Inv A (fun i => l.getD i ⟨.move, .imm 0, none, .stack 0⟩) l.length M σ
        ⟨fun i => (l.getD i ⟨.move, .imm 0, none, .stack 0⟩).first, fun i => (l.getD i ⟨.move, .imm 0, none, .stack 0⟩).second, fun _ => .toMove, []⟩ none := by
      constructor
      · intro i hi h; cases h
      · intro x _ _; rfl
      · intro j hj _ _; exact ⟨rfl, fun i _ h => by cases h⟩
      · intro j h; cases h
    obtain ⟨s', e, inv, hall⟩ := outerLoop_spec ok l.length 0 (by omega) _ inv0 (fun b h => by cases h) (fun j hj => by omega)
    refine ⟨s'.ops, by unfold parallelMoves; simp only; rw [e]; rfl, ?_, ?_⟩
    · intro op hop
      obtain ⟨j, hj, hje⟩ := List.getElem_of_mem hop
      have hget : l.getD j ⟨.move, .imm 0, none, .stack 0⟩ = op := by
        rw [List.getD_eq_getElem?_getD, List.getElem?_eq_getElem hj]; exact hje
      by_cases hm : s'.status j = .moved
      · have := inv.moved j hj hm
        simp only [hget] at this
        exact this
      · rcases hall j hj with h | ⟨h1, h2⟩
        · exact absurd h hm
        · simp only [hget] at h1 h2
          rw [Machine.value, h1]
          simp only
          rw [sameLoc_eval h2]
          refine inv.other _ ?_ fun i hi him heq => ?_
          · have := ok.outT j hj
            simp only [hget] at this
            exact this
          · have := ok.inj i j hi hj (by rw [heq, hget])
            subst this
            exact hm him
    · intro x hx hT
      refine inv.other x hT fun i hi _ => ?_
      have : l.getD i ⟨.move, .imm 0, none, .stack 0⟩ ∈ l := by
        rw [List.getD_eq_getElem?_getD, List.getElem?_eq_getElem hi]; exact List.getElem_mem hi
      exact hx _ this
  obtain ⟨out, e, _⟩ := key Unit ⟨fun _ _ _ _ => (), fun _ _ _ => (), fun _ => ()⟩ (fun _ => ())
  refine ⟨out, e, fun V M σ => ?_⟩
  obtain ⟨out', e', h⟩ := key V M σ
  rw [e] at e'
  rw [Option.some.inj e']
  exact h

end Nature.ParMove
