import Verif.Sched.Spec
import Verif.Sched.Order
/-
Instructions that must keep their order are connected by dependencies.
-/
namespace Nature.Sched

/-- `o` is the last of the numbers below `k` with `P`. -/
def IsLast (P : Nat → Prop) (k : Nat) : Option Nat → Prop
  | none => ∀ i, i < k → ¬ P i
  | some m => m < k ∧ P m ∧ ∀ i, m < i → i < k → ¬ P i

theorem IsLast.keep {P : Nat → Prop} {k : Nat} {o : Option Nat} (h : IsLast P k o) (hk : ¬ P k) : IsLast P (k + 1) o := by
  cases o with
  | none =>
    intro i hi
    by_cases e : i = k
    · subst e; exact hk
    · exact h i (by omega)
  | some m =>
    refine ⟨by have := h.1; omega, h.2.1, ?_⟩
    intro i h1 h2
    by_cases e : i = k
    · subst e; exact hk
    · exact h.2.2 i h1 (by omega)

theorem IsLast.new {P : Nat → Prop} {k : Nat} (hk : P k) : IsLast P (k + 1) (some k) :=
  ⟨by omega, hk, fun i h1 h2 => by omega⟩

theorem IsLast.get {P : Nat → Prop} {k : Nat} {o : Option Nat} (h : IsLast P k o) {i : Nat} (hi : i < k) (hp : P i) :
    ∃ m, o = some m ∧ i ≤ m ∧ m < k ∧ P m := by
  cases o with
  | none => exact (h i hi hp).elim
  | some m =>
    refine ⟨m, rfl, ?_, h.1, h.2.1⟩
    apply Nat.le_of_not_lt
    intro hlt
    exact h.2.2 i hlt hi hp

theorem fixed_iff (op : Op) : op.fixed = true ↔ op.barrier := by
  unfold Op.fixed Op.barrier
  cases op.code <;> simp

theorem barrier_not {op : Op} (h : ¬ op.barrier) : op.fixed = false := by
  rw [← Bool.not_eq_true]; exact fun h' => h ((fixed_iff op).mp h')

theorem part_var {b : Option Part} {v : Nat} : Loc.var v ∈ Part.locs b ↔ v ∈ Part.vars b := by
  cases b with
  | none => simp [Part.locs, Part.vars]
  | some p => cases p <;> simp [Part.locs, Part.vars, Reg.unit]

theorem reads_var (op : Op) (v : Nat) : Loc.var v ∈ op.reads ↔ v ∈ op.varUses := by
  have h1 : ∀ o : Operand, Loc.var v ∈ o.places ↔ v ∈ o.vars := by
    intro o; cases o <;> simp [Operand.places, Operand.vars, part_var, Reg.unit]
  have h2 : ∀ o : Operand, Loc.var v ∈ o.addr ↔ v ∈ o.outVars := by
    intro o; cases o <;> simp [Operand.addr, Operand.outVars, part_var]
  have h3 : ∀ o : Option Operand, Loc.var v ∈ o.toList.flatMap Operand.places ↔ v ∈ ofOpt Operand.vars o := by
    intro o; cases o <;> simp [ofOpt, h1]
  have h4 : ∀ o : Option Operand, Loc.var v ∈ o.toList.flatMap Operand.addr ↔ v ∈ ofOpt Operand.outVars o := by
    intro o; cases o <;> simp [ofOpt, h2]
  unfold Op.reads Op.varUses Op.inputs
  simp only [List.mem_append, List.mem_filter, List.flatMap_append, h3, h4, ne_eq, reduceCtorEq, not_false_eq_true, implies_true,
    decide_true, and_true]
  constructor
  · rintro (((h | h) | h) | h)
    · exact Or.inl (Or.inl (Or.inr h))
    · exact Or.inl (Or.inr h)
    · exact Or.inr h
    · exact Or.inl (Or.inl (Or.inl h))
  · rintro (((h | h) | h) | h)
    · exact Or.inr h
    · exact Or.inl (Or.inl (Or.inl h))
    · exact Or.inl (Or.inl (Or.inr h))
    · exact Or.inl (Or.inr h)

theorem writes_var (op : Op) (v : Nat) : Loc.var v ∈ op.writes ↔ op.varDef = some v := by
  have h1 : Loc.var v ∉ (match op.first with | some (.regs rs) => rs.map Reg.unit | _ => ([] : List Loc)) := by
    split <;> simp [Reg.unit]
  unfold Op.writes Op.varDef
  rw [List.mem_append]
  constructor
  · rintro (h | h)
    · split at h <;> simp_all [Reg.unit]
    · exact (h1 h).elim
  · intro h
    left
    split at h
    · simp_all
    · cases h

theorem inRegs_iff (op : Op) (r : Reg) : r ∈ op.inRegs ↔ r ∈ op.regUses := by
  have h1 : ∀ o : Option Operand, r ∈ o.toList.flatMap Operand.inRegs ↔
      r ∈ ofOpt Operand.regUses o := by
    intro o
    cases o with
    | none => simp [ofOpt]
    | some o => cases o <;> simp [ofOpt, Operand.regUses, Operand.inRegs]
  unfold Op.inRegs Op.regUses Op.inputs
  simp only [List.mem_append, List.flatMap_append, h1]

theorem regDef_iff (op : Op) (r : Reg) : op.output = some (.reg r) ↔ op.regDef = some r := by
  unfold Op.regDef
  constructor
  · intro h; rw [h]
  · intro h
    split at h
    · rename_i h'; cases h; exact h'
    · cases h

theorem uses_iff (id : Reg → Nat) (op : Op) (n : Nat) : UsesReg id op n ↔ ∃ r ∈ op.regUses, id r = n := by
  unfold UsesReg
  constructor
  · rintro ⟨r, h, e⟩; exact ⟨r, (inRegs_iff op r).mp h, e⟩
  · rintro ⟨r, h, e⟩; exact ⟨r, (inRegs_iff op r).mpr h, e⟩

theorem defs_iff (id : Reg → Nat) (op : Op) (n : Nat) : DefsReg id op n ↔ ∃ r, op.regDef = some r ∧ id r = n := by
  unfold DefsReg
  constructor
  · rintro ⟨r, h, e⟩; exact ⟨r, (regDef_iff op r).mp h, e⟩
  · rintro ⟨r, h, e⟩; exact ⟨r, (regDef_iff op r).mpr h, e⟩

/-- Memory through an address. -/
theorem memAcc_iff (op : Op) (h : ¬ op.barrier) :
    (op.memRead || op.memWrite) = true ↔ ∃ b i, some (Operand.ind b i) ∈ [op.first, op.second, op.output] := by
  have hc : (op.code == .call) = false ∧ (op.code == .rtCall) = false := by
    unfold Op.barrier at h
    constructor <;> (rw [beq_eq_false_iff_ne]; intro e; rw [e] at h; simp at h)
  have h1 : ∀ o, Operand.isInd o = true ↔ ∃ b i, some (Operand.ind b i) = o := by
    intro o
    unfold Operand.isInd
    constructor
    · intro h
      split at h
      · exact ⟨_, _, rfl⟩
      · cases h
    · rintro ⟨b, i, rfl⟩; rfl
  unfold Op.memRead Op.memWrite
  rw [hc.1, hc.2]
  simp only [Bool.or_false, Bool.or_eq_true, h1, List.mem_cons, List.not_mem_nil, or_false]
  constructor
  · rintro ((⟨b, i, h⟩ | ⟨b, i, h⟩) | ⟨b, i, h⟩)
    · exact ⟨b, i, Or.inl h⟩
    · exact ⟨b, i, Or.inr (Or.inl h)⟩
    · exact ⟨b, i, Or.inr (Or.inr h)⟩
  · rintro ⟨b, i, h | h | h⟩
    · exact Or.inl (Or.inl ⟨b, i, h⟩)
    · exact Or.inl (Or.inr ⟨b, i, h⟩)
    · exact Or.inr ⟨b, i, h⟩

variable (id : Reg → Nat) (ops : List Op)

/-- The tables when node `k` is reached. -/
def tabsAt : Nat → Tabs
  | 0 => {}
  | k + 1 => match ops[k]? with | some op => (step id (tabsAt k) k op).2 | none => tabsAt k

def VDef (v : Nat) (i : Nat) : Prop := ∃ a, ops[i]? = some a ∧ a.varDef = some v
def RDef (n : Nat) (i : Nat) : Prop := ∃ a, ops[i]? = some a ∧ DefsReg id a n
def RUse (n : Nat) (i : Nat) : Prop := ∃ a, ops[i]? = some a ∧ UsesReg id a n
def MemAt (i : Nat) : Prop := ∃ a, ops[i]? = some a ∧ (a.memRead || a.memWrite) = true

theorem regUse_snd (n : Nat) (rdef : Nat → Option Nat) (rs : List Reg) (ruse : Nat → Option Nat) (k : Nat) :
    (regUseDeps id n rdef rs ruse).2 k = if (∃ r ∈ rs, id r = k) then some n else ruse k := by
  induction rs generalizing ruse with
  | nil => simp [regUseDeps]
  | cons r rs ih =>
    simp only [regUseDeps, ih, put]
    by_cases h : ∃ r ∈ rs, id r = k
    · have : ∃ x ∈ r :: rs, id x = k := by obtain ⟨x, hx, e⟩ := h; exact ⟨x, List.mem_cons_of_mem _ hx, e⟩
      rw [if_pos h, if_pos this]
    · rw [if_neg h]
      by_cases e : k = id r
      · rw [if_pos e, if_pos ⟨r, List.mem_cons_self, e.symm⟩]
      · rw [if_neg e, if_neg]
        rintro ⟨x, hx, e'⟩
        rcases List.mem_cons.mp hx with rfl | hx
        · exact e e'.symm
        · exact h ⟨x, hx, e'⟩

theorem mem_regUse_fst {n : Nat} {rdef : Nat → Option Nat} {rs : List Reg} {ruse : Nat → Option Nat} {m : Nat} :
    m ∈ (regUseDeps id n rdef rs ruse).1 ↔ ∃ r ∈ rs, m ∈ other n (rdef (id r)) := by
  induction rs generalizing ruse with
  | nil => simp [regUseDeps]
  | cons r rs ih => simp [regUseDeps, ih]

theorem mem_other {n m : Nat} {o : Option Nat} : m ∈ other n o ↔ o = some m ∧ m ≠ n := by
  cases o with
  | none => simp [other]
  | some x =>
    simp only [other]
    split
    · rename_i h; subst h
      simp only [List.not_mem_nil, Option.some.injEq, false_iff, not_and, ne_eq, Decidable.not_not]
      exact fun h => h.symm
    · rename_i h
      simp only [List.mem_singleton, Option.some.injEq]
      constructor
      · rintro rfl; exact ⟨rfl, h⟩
      · rintro ⟨rfl, _⟩; rfl

/-- What the tables hold. -/
structure TabsOk (k : Nat) (t : Tabs) : Prop where
  v : ∀ v, IsLast (VDef ops v) k (t.vdef v)
  d : ∀ n, IsLast (RDef id ops n) k (t.rdef n)
  u : ∀ n, IsLast (RUse id ops n) k (t.ruse n)
  m : IsLast (MemAt ops) k t.lmem

theorem get_unique {a b : Op} {i : Nat} (h : ops[i]? = some a) (h' : ops[i]? = some b) : a = b := by
  rw [h] at h'; exact Option.some.inj h'

theorem tabsAt_ok (k : Nat) : TabsOk id ops k (tabsAt id ops k) := by
  induction k with
  | zero => exact ⟨fun _ _ h => by omega, fun _ _ h => by omega, fun _ _ h => by omega, fun _ h => by omega⟩
  | succ k ih =>
    rw [tabsAt]
    cases hop : ops[k]? with
    | none =>
      dsimp only
      refine ⟨fun v => (ih.v v).keep ?_, fun v => (ih.d v).keep ?_, fun v => (ih.u v).keep ?_, ih.m.keep ?_⟩ <;>
        (rintro ⟨a, h, _⟩; rw [hop] at h; cases h)
    | some op =>
      dsimp only
      simp only [step]
      refine ⟨?_, ?_, ?_, ?_⟩
      · intro v
        dsimp only
        cases hd : op.varDef with
        | none =>
          refine (ih.v v).keep ?_
          rintro ⟨a, h, h'⟩
          rw [← get_unique ops hop h, hd] at h'; cases h'
        | some w =>
          dsimp only [put]
          by_cases e : v = w
          · subst e; rw [if_pos rfl]; exact IsLast.new ⟨op, hop, hd⟩
          · rw [if_neg e]
            refine (ih.v v).keep ?_
            rintro ⟨a, h, h'⟩
            rw [← get_unique ops hop h, hd] at h'
            exact e (Option.some.inj h').symm
      · intro n
        dsimp only
        cases hd : op.regDef with
        | none =>
          refine (ih.d n).keep ?_
          rintro ⟨a, h, h''⟩
          obtain ⟨r, h', _⟩ := (defs_iff _ _ _).mp h''
          rw [← get_unique ops hop h, hd] at h'; cases h'
        | some w =>
          dsimp only [put]
          by_cases e : n = id w
          · rw [if_pos e]; exact IsLast.new ⟨op, hop, (defs_iff _ _ _).mpr ⟨w, hd, e.symm⟩⟩
          · rw [if_neg e]
            refine (ih.d n).keep ?_
            rintro ⟨a, h, h3⟩
            obtain ⟨r, h', h''⟩ := (defs_iff _ _ _).mp h3
            rw [← get_unique ops hop h, hd] at h'
            exact e (by rw [Option.some.inj h', h''])
      · intro n
        dsimp only
        rw [regUse_snd]
        by_cases e : ∃ r ∈ op.regUses, id r = n
        · rw [if_pos e]; exact IsLast.new ⟨op, hop, (uses_iff _ _ _).mpr e⟩
        · rw [if_neg e]
          refine (ih.u n).keep ?_
          rintro ⟨a, h, h'⟩
          rw [← get_unique ops hop h] at h'
          exact e ((uses_iff _ _ _).mp h')
      · dsimp only
        by_cases e : (op.memRead || op.memWrite) = true
        · rw [if_pos e]; exact IsLast.new ⟨op, hop, e⟩
        · rw [if_neg e]
          refine ih.m.keep ?_
          rintro ⟨a, h, h'⟩
          rw [← get_unique ops hop h] at h'
          exact e h'

/-- A dependency. -/
def Edge (i j : Nat) : Prop := ∃ op, ops[j]? = some op ∧ i ∈ (step id (tabsAt id ops j) j op).1

inductive Path : Nat → Nat → Prop
  | edge {i j : Nat} : Edge id ops i j → Path i j
  | trans {i j k : Nat} : Path i j → Path j k → Path i k

theorem edge_lt {i j : Nat} (h : Edge id ops i j) : i < j := by
  obtain ⟨op, hop, hm⟩ := h
  have T := tabsAt_ok id ops j
  have key : ∀ {P : Nat → Prop} {o : Option Nat}, IsLast P j o → i ∈ other j o → i < j := by
    intro P o hl hi
    obtain ⟨rfl, _⟩ := mem_other.mp hi
    exact hl.1
  simp only [step, List.mem_append] at hm
  rcases hm with ((h | h) | h) | h
  · obtain ⟨v, _, h⟩ := List.mem_flatMap.mp h
    exact key (T.v v) h
  · obtain ⟨r, _, h⟩ := (mem_regUse_fst id).mp h
    exact key (T.d _) h
  · cases hd : op.regDef with
    | none => rw [hd] at h; exact (List.not_mem_nil h).elim
    | some r =>
      rw [hd] at h
      dsimp only at h
      rcases List.mem_append.mp h with h | h
      · exact key (T.d _) h
      · rw [regUse_snd] at h
        by_cases e : ∃ x ∈ op.regUses, id x = id r
        · rw [if_pos e] at h
          have := (mem_other.mp h)
          exact (this.2 (Option.some.inj this.1).symm).elim
        · rw [if_neg e] at h; exact key (T.u _) h
  · split at h
    · exact key T.m h
    · exact (List.not_mem_nil h).elim

theorem edge_var {j m v : Nat} {b : Op} (hb : ops[j]? = some b) (hv : v ∈ b.varUses) (hm : m < j)
    (h : (tabsAt id ops j).vdef v = some m) : Edge id ops m j :=
  ⟨b, hb, by
    simp only [step, List.mem_append]
    exact Or.inl (Or.inl (Or.inl (List.mem_flatMap.mpr ⟨v, hv, mem_other.mpr ⟨h, by omega⟩⟩)))⟩

theorem edge_use {j m n : Nat} {b : Op} (hb : ops[j]? = some b) (hv : UsesReg id b n) (hm : m < j)
    (h : (tabsAt id ops j).rdef n = some m) : Edge id ops m j := by
  obtain ⟨r, hr, rfl⟩ := (uses_iff _ _ _).mp hv
  refine ⟨b, hb, ?_⟩
  simp only [step, List.mem_append]
  exact Or.inl (Or.inl (Or.inr ((mem_regUse_fst id).mpr ⟨r, hr, mem_other.mpr ⟨h, by omega⟩⟩)))

theorem edge_def {j m n : Nat} {b : Op} (hb : ops[j]? = some b) (hv : DefsReg id b n) (hm : m < j)
    (h : (tabsAt id ops j).rdef n = some m) : Edge id ops m j := by
  obtain ⟨r, hr, rfl⟩ := (defs_iff _ _ _).mp hv
  refine ⟨b, hb, ?_⟩
  simp only [step, List.mem_append, hr]
  exact Or.inl (Or.inr (Or.inl (mem_other.mpr ⟨h, by omega⟩)))

theorem edge_war {j m n : Nat} {b : Op} (hb : ops[j]? = some b) (hv : DefsReg id b n) (hu : ¬ UsesReg id b n) (hm : m < j)
    (h : (tabsAt id ops j).ruse n = some m) : Edge id ops m j := by
  obtain ⟨r, hr, rfl⟩ := (defs_iff _ _ _).mp hv
  refine ⟨b, hb, ?_⟩
  simp only [step, List.mem_append, hr]
  refine Or.inl (Or.inr (Or.inr (mem_other.mpr ⟨?_, by omega⟩)))
  rw [regUse_snd, if_neg (show ¬ ∃ x ∈ b.regUses, id x = id r from fun h => hu ((uses_iff _ _ _).mpr h))]
  exact h

theorem edge_mem {j m : Nat} {b : Op} (hb : ops[j]? = some b) (hv : (b.memRead || b.memWrite) = true) (hm : m < j)
    (h : (tabsAt id ops j).lmem = some m) : Edge id ops m j := by
  refine ⟨b, hb, ?_⟩
  simp only [step, List.mem_append, hv, if_true]
  exact Or.inr (mem_other.mpr ⟨h, by omega⟩)

variable {id ops}

theorem path_var (hok : VarsOk ops) {v i : Nat} (hi : VDef ops v i) :
    ∀ (j : Nat) (b : Op), i < j → ops[j]? = some b → v ∈ b.varUses → Path id ops i j := by
  intro j
  induction j using Nat.strongRecOn with
  | _ j ih =>
    intro b hij hb hv
    obtain ⟨m, hm, h1, h2, c, hc, hcv⟩ := ((tabsAt_ok id ops j).v v).get hij hi
    have e := edge_var id ops hb hv h2 hm
    by_cases him : i = m
    · subst him; exact .edge e
    · obtain ⟨a, ha, hav⟩ := hi
      have := hok i m a c v (by omega) ha hc ((writes_var _ _).mpr hcv) (Or.inr ((writes_var _ _).mpr hav))
      exact .trans (ih m h2 c (by omega) hc ((reads_var _ _).mp this.2)) (.edge e)

theorem path_def {n i : Nat} (hi : RDef id ops n i) :
    ∀ (j : Nat) (b : Op), i < j → ops[j]? = some b → UsesReg id b n ∨ DefsReg id b n → Path id ops i j := by
  intro j
  induction j using Nat.strongRecOn with
  | _ j ih =>
    intro b hij hb hv
    obtain ⟨m, hm, h1, h2, c, hc, hcv⟩ := ((tabsAt_ok id ops j).d n).get hij hi
    have e : Edge id ops m j := hv.elim (fun h => edge_use id ops hb h h2 hm) (fun h => edge_def id ops hb h h2 hm)
    by_cases him : i = m
    · subst him; exact .edge e
    · exact .trans (ih m h2 c (by omega) hc (Or.inr hcv)) (.edge e)

/-- The third condition of `RegsOk`. -/
def Fresh (id : Reg → Nat) (ops : List Op) : Prop :=
  ∀ (i k : Nat) (a b : Op) (n : Nat), i < k → ops[i]? = some a → ops[k]? = some b → UsesReg id a n → UsesReg id b n →
    (ClobbersReg id a n ∨ ∃ (j : Nat) (c : Op), k ≤ j ∧ ops[j]? = some c ∧ (DefsReg id c n ∨ ClobbersReg id c n)) →
    ∃ (d : Nat) (c : Op), i ≤ d ∧ d < k ∧ ops[d]? = some c ∧ DefsReg id c n

theorem path_war (hok : Fresh id ops) {n i : Nat} {a : Op} (ha : ops[i]? = some a) (hi : UsesReg id a n) :
    ∀ (j : Nat) (b : Op), i < j → ops[j]? = some b → DefsReg id b n → Path id ops i j := by
  intro j
  induction j using Nat.strongRecOn with
  | _ j ih =>
    intro b hij hb hd
    by_cases hu : UsesReg id b n
    · obtain ⟨d, c, h1, h2, hc, hcd⟩ := hok i j a b n hij ha hb hi hu (Or.inr ⟨j, b, by omega, hb, Or.inl hd⟩)
      have p2 : Path id ops d j := path_def ⟨c, hc, hcd⟩ j b h2 hb (Or.inl hu)
      by_cases e : i = d
      · subst e; exact p2
      · exact .trans (ih d h2 c (by omega) hc hcd) p2
    · obtain ⟨k, hk, h1, h2, c, hc, hcu⟩ := ((tabsAt_ok id ops j).u n).get hij ⟨a, ha, hi⟩
      have e := edge_war id ops hb hd hu h2 hk
      by_cases hik : i = k
      · subst hik; exact .edge e
      · obtain ⟨d, x, h3, h4, hx, hxd⟩ := hok i k a c n (by omega) ha hc hi hcu (Or.inr ⟨j, b, by omega, hb, Or.inl hd⟩)
        have p2 : Path id ops d k := path_def ⟨x, hx, hxd⟩ k c h4 hc (Or.inl hcu)
        refine .trans ?_ (.edge e)
        by_cases e' : i = d
        · subst e'; exact p2
        · exact .trans (ih d (by omega) x (by omega) hx hxd) p2

/-- Two uses, one of which also clobbers. -/
theorem path_clob (hok : Fresh id ops) {n i j : Nat} {a b : Op} (hij : i < j) (ha : ops[i]? = some a) (hb : ops[j]? = some b)
    (hi : UsesReg id a n) (hj : UsesReg id b n) (h : ClobbersReg id a n ∨ ClobbersReg id b n) : Path id ops i j := by
  obtain ⟨d, c, h1, h2, hc, hcd⟩ := hok i j a b n hij ha hb hi hj
    (h.elim Or.inl (fun h => Or.inr ⟨j, b, by omega, hb, Or.inr h⟩))
  have p2 : Path id ops d j := path_def ⟨c, hc, hcd⟩ j b h2 hb (Or.inl hj)
  by_cases e : i = d
  · subst e; exact p2
  · exact .trans (path_war hok ha hi d c (by omega) hc hcd) p2

theorem path_mem {i : Nat} (hi : MemAt ops i) :
    ∀ (j : Nat) (b : Op), i < j → ops[j]? = some b → (b.memRead || b.memWrite) = true → Path id ops i j := by
  intro j
  induction j using Nat.strongRecOn with
  | _ j ih =>
    intro b hij hb hv
    obtain ⟨m, hm, h1, h2, c, hc, hcv⟩ := (tabsAt_ok id ops j).m.get hij hi
    have e := edge_mem id ops hb hv h2 hm
    by_cases him : i = m
    · subst him; exact .edge e
    · exact .trans (ih m h2 c (by omega) hc hcv) (.edge e)

end Nature.Sched
