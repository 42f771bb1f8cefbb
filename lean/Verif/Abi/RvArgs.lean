import Verif.Abi.RvLemmas
/-
riscv64: the two sides meet.
-/
namespace Nature.Abi.Rv
open Nature.TypeLayout
open Nature.Abi.Arm (Zone Cnt room_ge allocOff_room allocOff_size Used)

def mkItem (fpc : Int) (i : Nat) (t : Ty) (p : Pos) (soC so : Nat) : Item :=
  { i := i, t := t, pl := placeOf p, cpx := .slot (-(allocOff soC t : Int)), cp := fpc - allocOff soC t, lo := allocOff so t, lsz := room t,
    P := fieldByte t }

def nextC (t : Ty) (p : Pos) (soC : Nat) : Nat := if p.main % 2 = 1 then allocOff soC t else soC
def nextSo (t : Ty) (p : Pos) (so : Nat) : Nat := if p.main % 2 = 0 ∧ t.ind = true then allocOff so t else so

def mkItems (fpc : Int) : (i : Nat) → List Ty → List Pos → (soC so : Nat) → List Item
  | i, t :: ts, p :: ps, soC, so => mkItem fpc i t p soC so :: mkItems fpc (i + 1) ts ps (nextC t p soC) (nextSo t p so)
  | _, _, _, _, _ => []

def finC : List Ty → List Pos → (soC : Nat) → Nat
  | t :: ts, p :: ps, soC => finC ts ps (nextC t p soC)
  | _, _, soC => soC
def finSo : List Ty → List Pos → (so : Nat) → Nat
  | t :: ts, p :: ps, so => finSo ts ps (nextSo t p so)
  | _, _, so => so

/-- One argument: what is emitted for it. -/
theorem Case.ops {t : Ty} {nx nv ns nx' nv' ns' : Nat} {p : Pos} (h : Case t nx nv ns p nx' nv' ns') (hc : Cnt nx nv ns)
    (fpc : Int) (i soC so : Nat) :
    (if p.main % 2 = 1 then allocOp soC t (.work i 0) :: memMov i (sizeOf t) (.work i 0) (.actual i) else []) = (mkItem fpc i t p soC so).copyOps ∧
    stackArg i t p = some ((((mkItem fpc i t p soC so).units).filter U.isStk).flatMap U.ops) ∧
    regArg i t p = some ((((mkItem fpc i t p soC so).units).filter fun u => !u.isStk).flatMap U.ops) ∧
    param i t p so = some ((mkItem fpc i t p soC so).inOps, nextSo t p so) := by
  obtain ⟨hx, hv, hn, hs⟩ := hc
  have ref : ∀ m, t.ind = true → m % 2 = 1 →
      (if m % 2 = 1 then allocOp soC t (.work i 0) :: memMov i (sizeOf t) (.work i 0) (.actual i) else []) = (mkItem fpc i t ⟨m, .i64, none⟩ soC so).copyOps ∧
      stackArg i t ⟨m, .i64, none⟩ = some ((((mkItem fpc i t ⟨m, .i64, none⟩ soC so).units).filter U.isStk).flatMap U.ops) ∧
      regArg i t ⟨m, .i64, none⟩ = some ((((mkItem fpc i t ⟨m, .i64, none⟩ soC so).units).filter fun u => !u.isStk).flatMap U.ops) ∧
      param i t ⟨m, .i64, none⟩ so = some ((mkItem fpc i t ⟨m, .i64, none⟩ soC so).inOps, nextSo t ⟨m, .i64, none⟩ so) := by
    intro m ht hm
    have h8 : immKind t = .i64 := by cases t <;> first | rfl | cases ht
    have h0 : ¬ m % 2 = 0 := by omega
    refine ⟨by simp [hm, mkItem, Item.copyOps, placeOf, allocOp], ?_, ?_, ?_⟩
    · by_cases h32 : m < 32
      · have := plOf_reg (k := .i64) h32
        simp [stackArg, mkItem, Item.units, placeOf, hm, U.isStk, this.2, show ¬ 32 ≤ m by omega]
      · have := plOf_stk (k := .i64) (show 32 ≤ m by omega)
        simp [stackArg, mkItem, Item.units, placeOf, hm, U.isStk, this.2, this.1, show 32 ≤ m by omega, h8, List.filter_cons, U.ops, Scal.size]
    · by_cases h32 : m < 32
      · have := plOf_reg (k := .i64) h32
        simp [regArg, mkItem, Item.units, placeOf, hm, U.isStk, this.2, this.1, h32, List.filter_cons, U.ops, Scal.size]
      · have := plOf_stk (k := .i64) (show 32 ≤ m by omega)
        simp [regArg, mkItem, Item.units, placeOf, hm, U.isStk, this.2, h32]
    · simp [param, h0, hm, mkItem, Item.inOps, placeOf, nextSo, plOf_in, h8, Scal.size]
  have hU : ∀ (m : Nat) (k : Scal) (off n : Nat), U.isStk (.part i t (plOf m k) off n .plain) = decide (32 ≤ m) := by
    intro m k off n
    by_cases h32 : m < 32
    · simp [U.isStk, (plOf_reg (k := k) h32).2]; omega
    · simp [U.isStk, (plOf_stk (k := k) (show 32 ≤ m by omega)).2]; omega
  have hO : ∀ (m : Nat) (k : Scal), (plOf m k).opd = if 32 ≤ m then .spo (m - m % 2 - 32) else regOf m k := by
    intro m k
    split
    · rename_i h; exact (plOf_stk h).1
    · exact (plOf_reg (by omega)).1
  cases h with
  | refReg h1 h2 => exact ref (2 * nx + 1) h1 (by omega)
  | refStk h1 => exact ref (ns + 1) h1 (by omega)
  | @scal s m _ _ _ h1 h2 =>
    have hm := (h2.mono hx hv hn hs).2.2.2.2.2.2
    have h0 : ¬ m % 2 = 1 := by omega
    subst h1
    refine ⟨by simp [h0, mkItem, Item.copyOps, placeOf], ?_, ?_, ?_⟩
    · by_cases h32 : 32 ≤ m
      · simp [stackArg, mkItem, Item.units, placeOf, h0, hm, hU, hO, h32, Ty.isAgg, Ty.ind, U.ops, immKind, List.filter_cons]
      · simp [stackArg, mkItem, Item.units, placeOf, h0, hm, hU, h32, List.filter_cons]
    · by_cases h32 : 32 ≤ m
      · simp [regArg, mkItem, Item.units, placeOf, h0, hm, hU, h32, show ¬ m < 32 by omega, List.filter_cons]
      · simp [regArg, mkItem, Item.units, placeOf, h0, hm, hU, hO, h32, show m < 32 by omega, Ty.isAgg, Ty.ind, U.ops, List.filter_cons]
    · simp [param, h0, hm, mkItem, Item.inOps, placeOf, nextSo, plOf_in, Ty.isAgg, Ty.ind, immKind]
  | @one es a m _ _ _ h1 h2 h3 h4 =>
    have hm := (h4.mono hx hv hn hs).2.2.2.2.2.2
    have h0 : ¬ m % 2 = 1 := by omega
    subst h1
    refine ⟨by simp [h0, mkItem, Item.copyOps, placeOf], ?_, ?_, ?_⟩
    · by_cases h32 : 32 ≤ m
      · simp [stackArg, mkItem, Item.units, placeOf, h0, hm, hU, hO, h32, Ty.isAgg, Ty.ind, U.ops, List.filter_cons]
      · simp [stackArg, mkItem, Item.units, placeOf, h0, hm, hU, h32, List.filter_cons]
    · by_cases h32 : 32 ≤ m
      · simp [regArg, mkItem, Item.units, placeOf, h0, hm, hU, h32, show ¬ m < 32 by omega, List.filter_cons]
      · simp [regArg, mkItem, Item.units, placeOf, h0, hm, hU, hO, h32, show m < 32 by omega, Ty.isAgg, Ty.ind, U.ops, List.filter_cons]
    · simp [param, h0, hm, mkItem, Item.inOps, placeOf, nextSo, plOf_in, Ty.isAgg, Ty.ind, allocOp]
  | @two es a b m m' _ _ _ _ _ _ h1 h2 h3 h4 h5 =>
    have ha := h4.mono hx hv hn hs
    have hm := ha.2.2.2.2.2.2
    have hm' := (h5.mono ha.2.1 ha.2.2.2.1 ha.2.2.2.2.2.1 (by omega)).2.2.2.2.2.2
    have h0 : ¬ m % 2 = 1 := by omega
    subst h1
    refine ⟨by simp [h0, mkItem, Item.copyOps, placeOf], ?_, ?_, ?_⟩
    · by_cases h32 : 32 ≤ m <;> by_cases h32' : 32 ≤ m' <;>
        simp [stackArg, mkItem, Item.units, placeOf, h0, hm, hm', hU, hO, h32, h32', Ty.isAgg, Ty.ind, U.ops, List.filter_cons]
    · by_cases h32 : 32 ≤ m <;> by_cases h32' : 32 ≤ m' <;>
        simp [regArg, mkItem, Item.units, placeOf, h0, hm, hm', hU, hO, h32, h32', Ty.isAgg, Ty.ind, U.ops, List.filter_cons, Nat.not_lt.2, Nat.lt_of_not_le]
    · simp [param, h0, hm, mkItem, Item.inOps, placeOf, nextSo, plOf_in, Ty.isAgg, Ty.ind, allocOp]

/-! ### The list of arguments -/

/-- The arguments get their places one after the other. -/
inductive Run : List Ty → (nx nv ns : Nat) → List Pos → (nx' nv' ns' : Nat) → Prop
  | nil {nx nv ns} : Run [] nx nv ns [] nx nv ns
  | cons {t ts nx nv ns p nx1 nv1 ns1 ps nx' nv' ns'} : Case t nx nv ns p nx1 nv1 ns1 → Run ts nx1 nv1 ns1 ps nx' nv' ns' →
      Run (t :: ts) nx nv ns (p :: ps) nx' nv' ns'

/-- The argument list is one the code handles: every argument is (`fits1`), and no write outside an array occurs. -/
def fitsFrom : List Ty → (nx nv ns : Nat) → Bool
  | [], _, _, _ => true
  | t :: ts, nx, nv, ns => fits1 t && match posOf t nx nv ns with
    | some (_, nx, nv, ns) => fitsFrom ts nx nv ns
    | none => false

theorem run_of_fits : ∀ (ts : List Ty) (nx nv ns : Nat), fitsFrom ts nx nv ns = true →
    ∃ ps nx' nv' ns', pcs ts nx nv ns = some (ps, ns') ∧ Run ts nx nv ns ps nx' nv' ns'
  | [], nx, nv, ns, _ => ⟨[], nx, nv, ns, rfl, .nil⟩
  | t :: ts, nx, nv, ns, h => by
    simp only [fitsFrom, Bool.and_eq_true] at h
    cases hp : posOf t nx nv ns with
    | none => simp [hp] at h
    | some r =>
      obtain ⟨p, a, b, c⟩ := r
      simp only [hp] at h
      obtain ⟨ps, nx', nv', ns', e, R⟩ := run_of_fits ts a b c h.2
      refine ⟨p :: ps, nx', nv', ns', ?_, .cons (posOf_case hp h.1) R⟩
      simp only [pcs, hp, e, Option.bind_eq_bind, Option.bind_some]

theorem Case.cnt {t : Ty} {nx nv ns nx' nv' ns' : Nat} {p : Pos} (h : Case t nx nv ns p nx' nv' ns') (hc : Cnt nx nv ns) : Cnt nx' nv' ns' := by
  obtain ⟨hx, hv, hn, hs⟩ := hc
  have m := h.mono hx hv hn hs
  exact ⟨m.2.1, m.2.2.2.1, m.2.2.2.2.2, by omega⟩

theorem Run.ge {ts : List Ty} {nx nv ns nx' nv' ns' : Nat} {ps : List Pos} (h : Run ts nx nv ns ps nx' nv' ns') (hc : Cnt nx nv ns) :
    nx ≤ nx' ∧ nx' ≤ 8 ∧ nv ≤ nv' ∧ nv' ≤ 8 ∧ ns ≤ ns' := by
  induction h with
  | nil => exact ⟨Nat.le_refl _, hc.1, Nat.le_refl _, hc.2.1, Nat.le_refl _⟩
  | cons h _ ih =>
    have m := h.mono hc.1 hc.2.1 hc.2.2.1 hc.2.2.2
    have := ih (h.cnt hc)
    omega

theorem number_snd : ∀ (ts : List Ty) (i : Nat), (number i ts).map (·.2) = ts
  | [], _ => rfl
  | t :: ts, i => by simp [number, number_snd ts]

theorem ops_eq (fpc : Int) {ts : List Ty} {nx nv ns nx' nv' ns' : Nat} {ps : List Pos} (h : Run ts nx nv ns ps nx' nv' ns') (hc : Cnt nx nv ns) :
    ∀ i soC so, copies i ts ps soC = ((mkItems fpc i ts ps soC so).flatMap Item.copyOps, finC ts ps soC) ∧
    each stackArg i ts ps = some ((((mkItems fpc i ts ps soC so).flatMap Item.units).filter U.isStk).flatMap U.ops) ∧
    each regArg i ts ps = some ((((mkItems fpc i ts ps soC so).flatMap Item.units).filter fun u => !u.isStk).flatMap U.ops) ∧
    params (number i ts) ps so = some ((mkItems fpc i ts ps soC so).flatMap Item.inOps, finSo ts ps so) := by
  induction h with
  | nil => intro i soC so; simp [copies, each, params, mkItems, finC, finSo, number]
  | @cons t ts _ _ _ p _ _ _ ps _ _ _ h _ ih =>
    intro i soC so
    obtain ⟨h1, h2, h3, h4⟩ := h.ops hc fpc i soC so
    obtain ⟨i1, i2, i3, i4⟩ := ih (h.cnt hc) (i + 1) (nextC t p soC) (nextSo t p so)
    refine ⟨?_, ?_, ?_, ?_⟩
    · rw [copies, mkItems, finC, List.flatMap_cons, ← h1]
      unfold nextC at i1 ⊢
      split
      · rename_i hodd
        rw [if_pos hodd] at i1
        rw [i1]
      · rename_i hodd
        rw [if_neg hodd] at i1
        rw [i1]
        rfl
    · simp only [each, mkItems, List.flatMap_cons, List.filter_append, List.flatMap_append]
      rw [h2, i2]; rfl
    · simp only [each, mkItems, List.flatMap_cons, List.filter_append, List.flatMap_append]
      rw [h3, i3]; rfl
    · simp only [number, params, mkItems, List.flatMap_cons, finSo]
      rw [h4]
      simp only [Option.bind_eq_bind, Option.bind_some, i4]

structure Facts (sp fpc : Int) (it : Item) (i n nx nx' nv nv' ns ns' soC soC' so so' : Nat) : Prop where
  ge : i ≤ it.i
  lt : it.i < n
  shape : it.Shape
  P : it.P = fieldByte it.t
  slot : ∀ u ∈ it.units, ∀ c, u.cells sp c → Zone sp nx nx' nv nv' ns ns' c
  pw : it.units.Pairwise fun u v => ∀ c, u.cells sp c → ¬ v.cells sp c
  ref : it.isRef = true → ∃ o : Nat, it.cpx = .slot (-(o : Int)) ∧ it.cp = fpc - o ∧ soC + sizeOf it.t ≤ o ∧ o ≤ soC'
  loc : it.isLocal = true → so + it.lsz ≤ it.lo ∧ it.lo ≤ so'

/-- A place is between the counters. -/
theorem Slot.zone {k : Scal} {nx nv ns m nx' nv' ns' : Nat} (h : Slot k nx nv ns m nx' nv' ns') (hc : Cnt nx nv ns) {sp : Int} {n : Nat} (hn : n ≤ 8)
    {c : CL} (hcov : ((plOf m k).loc sp).cover n c) : Zone sp nx nx' nv nv' ns ns' c := by
  obtain ⟨hx, hv, h8, hs⟩ := hc
  obtain ⟨j, hj, rfl⟩ := hcov
  cases h with
  | gp h1 h2 =>
    have e : plOf (2 * nx) k = .gp nx := by
      have : 2 * nx < 32 := by omega
      have h16 : 2 * nx < 16 := by omega
      simp [plOf, this, h16, h1]
    rw [e]; exact .inl ⟨nx, j, rfl, by omega, by omega⟩
  | fp h1 h2 =>
    have e : plOf (16 + 2 * nv) k = .fp nv := by
      have : 16 + 2 * nv < 32 := by omega
      simp [plOf, this, h1]; omega
    rw [e]; exact .inr (.inl ⟨nv, j, rfl, by omega, by omega⟩)
  | stk =>
    have e : plOf ns k = .stk (ns - 32) := by
      unfold plOf
      rw [if_neg (by omega)]
      congr 1; omega
    rw [e]; exact .inr (.inr ⟨_, rfl, by omega, by omega⟩)

theorem one_facts {sp fpc : Int} {t : Ty} {nx nv ns nx' nv' ns' : Nat} {p : Pos} (h : Case t nx nv ns p nx' nv' ns') (hc : Cnt nx nv ns)
    (i soC so : Nat) (hso : so % 8 = 0) :
    Facts sp fpc (mkItem fpc i t p soC so) i (i + 1) nx nx' nv nv' ns ns' soC (nextC t p soC) so (nextSo t p so) := by
  have plain : ∀ {l : PL} {n off : Nat} {c : CL}, (U.part i t l off n .plain).cells sp c → (l.loc sp).cover n c := fun h => cells_plain h
  have hc' := hc
  obtain ⟨hx, hv, hn, hs⟩ := hc'
  cases h with
  | refReg h1 h2 =>
    have hm : (2 * nx + 1) % 2 = 1 := by omega
    have hp : placeOf ⟨2 * nx + 1, .i64, none⟩ = .ref (.gp nx) := by
      have : 2 * nx + 1 < 32 := by omega
      have h16 : 2 * nx + 1 < 16 := by omega
      simp [placeOf, hm, plOf, this, h16, Scal.isF]; omega
    refine ⟨Nat.le_refl _, Nat.lt_succ_self _, by simp only [Item.Shape, mkItem, hp]; exact h1, rfl, ?_, ?_, ?_, ?_⟩
    · intro u hu c hc
      simp only [Item.units, mkItem, hp, List.mem_singleton] at hu; subst hu
      obtain ⟨k, _, rfl⟩ := hc
      exact .inl ⟨nx, k, rfl, by omega, by omega⟩
    · simp only [Item.units, mkItem, hp]; exact List.pairwise_singleton ..
    · intro _
      refine ⟨_, rfl, rfl, allocOff_size, by simp [nextC, hm]⟩
    · intro hl; simp [Item.isLocal, mkItem, hp] at hl
  | refStk h1 =>
    have hm : (ns + 1) % 2 = 1 := by omega
    have hp : placeOf ⟨ns + 1, .i64, none⟩ = .ref (.stk (ns - 32)) := by
      simp only [placeOf, if_pos hm, plOf]
      rw [if_neg (by omega)]
      congr 2; omega
    refine ⟨Nat.le_refl _, Nat.lt_succ_self _, by simp only [Item.Shape, mkItem, hp]; exact h1, rfl, ?_, ?_, ?_, ?_⟩
    · intro u hu c hc
      simp only [Item.units, mkItem, hp, List.mem_singleton] at hu; subst hu
      obtain ⟨k, _, rfl⟩ := hc
      exact .inr (.inr ⟨_, rfl, by omega, by omega⟩)
    · simp only [Item.units, mkItem, hp]; exact List.pairwise_singleton ..
    · intro _
      refine ⟨_, rfl, rfl, allocOff_size, by simp [nextC, hm]⟩
    · intro hl; simp [Item.isLocal, mkItem, hp] at hl
  | @scal s m _ _ _ h1 h2 =>
    have hm := (h2.mono hx hv hn hs).2.2.2.2.2.2
    have hp : placeOf ⟨m, s, none⟩ = .parts [(plOf m s, 0, s.size)] := by
      simp only [placeOf]; rw [if_neg (by omega)]
    have ht : t.ind = false := by rw [h1]; rfl
    refine ⟨Nat.le_refl _, Nat.lt_succ_self _, ?_, rfl, ?_, ?_, ?_, ?_⟩
    · simp only [Item.Shape, mkItem, hp]
      refine ⟨?_, trivial⟩
      unfold PartsOk
      rw [if_neg (by rw [ht]; simp)]
      exact ⟨_, by rw [h1, sizeOf]⟩
    · intro u hu c hc'
      simp only [Item.units, mkItem, hp, List.map_cons, List.map_nil, List.mem_singleton] at hu; subst hu
      exact h2.zone hc (size_pos s).2 (plain hc')
    · simp only [Item.units, mkItem, hp]; exact List.pairwise_singleton ..
    · intro hr; simp [Item.isRef, mkItem, hp] at hr
    · intro hl; simp [Item.isLocal, mkItem, hp, ht] at hl
  | @one es a m _ _ _ h1 h2 h3 h4 =>
    have hm := (h4.mono hx hv hn hs).2.2.2.2.2.2
    have hp : placeOf ⟨m, a.kind, none⟩ = .parts [(plOf m a.kind, 0, a.kind.size)] := by
      simp only [placeOf]; rw [if_neg (by omega)]
    have ht : t.ind = true := by rw [h1]; rfl
    have hr := h2.range a (by simp)
    refine ⟨Nat.le_refl _, Nat.lt_succ_self _, ?_, rfl, ?_, ?_, ?_, ?_⟩
    · simp only [Item.Shape, mkItem, hp]
      refine ⟨?_, trivial⟩
      unfold PartsOk
      rw [if_pos ht]
      refine ⟨?_, ?_, by simp⟩
      · intro k hk
        obtain ⟨e, he, q⟩ := h2.cover k hk
        rw [List.mem_singleton] at he; subst he
        exact ⟨_, List.mem_singleton.2 rfl, by dsimp only; omega, by dsimp only; omega⟩
      · intro q hq
        rw [List.mem_singleton] at hq; subst hq
        dsimp only; omega
    · intro u hu c hc'
      simp only [Item.units, mkItem, hp, List.map_cons, List.map_nil, List.mem_singleton] at hu; subst hu
      exact h4.zone hc (size_pos a.kind).2 (plain hc')
    · simp only [Item.units, mkItem, hp]; exact List.pairwise_singleton ..
    · intro hr; simp [Item.isRef, mkItem, hp] at hr
    · intro hl
      have := allocOff_room (t := t) hso
      refine ⟨this.1, ?_⟩
      simp only [nextSo, hm, ht, and_self, if_true]; exact Nat.le_refl _
  | @two es a b m m' nx1 nv1 ns1 _ _ _ h1 h2 h3 h4 h5 =>
    have ha := h4.mono hx hv hn hs
    have hm := ha.2.2.2.2.2.2
    have hc1 : Cnt nx1 nv1 ns1 := ⟨ha.2.1, ha.2.2.2.1, ha.2.2.2.2.2.1, by omega⟩
    have hb := h5.mono hc1.1 hc1.2.1 hc1.2.2.1 hc1.2.2.2
    have hp : placeOf ⟨m, a.kind, some (m', b.kind, b.off)⟩ = .parts [(plOf m a.kind, 0, a.kind.size), (plOf m' b.kind, b.off, b.kind.size)] := by
      simp only [placeOf]; rw [if_neg (by omega)]
    have ht : t.ind = true := by rw [h1]; rfl
    have hr := h2.range a (by simp)
    have hr' := h2.range b (by simp)
    have hpw : a.off + a.kind.size ≤ b.off := by simpa using h2.pw
    have z1 : ∀ {n : Nat} {c : CL}, n ≤ 8 → ((plOf m a.kind).loc sp).cover n c → Zone sp nx nx1 nv nv1 ns ns1 c := fun h q => h4.zone hc h q
    have z2 : ∀ {n : Nat} {c : CL}, n ≤ 8 → ((plOf m' b.kind).loc sp).cover n c → Zone sp nx1 nx' nv1 nv' ns1 ns' c := fun h q => h5.zone hc1 h q
    have sa := (size_pos a.kind).2
    have sb := (size_pos b.kind).2
    refine ⟨Nat.le_refl _, Nat.lt_succ_self _, ?_, rfl, ?_, ?_, ?_, ?_⟩
    · simp only [Item.Shape, mkItem, hp]
      refine ⟨?_, trivial⟩
      unfold PartsOk
      rw [if_pos ht]
      refine ⟨?_, ?_, ?_⟩
      · intro k hk
        obtain ⟨e, he, q⟩ := h2.cover k hk
        simp only [List.mem_cons, List.not_mem_nil, or_false] at he
        rcases he with rfl | rfl
        · exact ⟨_, List.mem_cons_self .., by dsimp only; omega, by dsimp only; omega⟩
        · exact ⟨_, List.mem_cons_of_mem _ (List.mem_cons_self ..), by dsimp only; omega, by dsimp only; omega⟩
      · intro q hq
        simp only [List.mem_cons, List.not_mem_nil, or_false] at hq
        rcases hq with rfl | rfl <;> dsimp only <;> omega
      · simp; omega
    · intro u hu c hc'
      simp only [Item.units, mkItem, hp, List.map_cons, List.map_nil, List.mem_cons, List.not_mem_nil, or_false] at hu
      rcases hu with rfl | rfl
      · exact (z1 sa (plain hc')).mono (Nat.le_refl _) (by omega) (Nat.le_refl _) (by omega) (Nat.le_refl _) (by omega)
      · exact (z2 sb (plain hc')).mono (by omega) (Nat.le_refl _) (by omega) (Nat.le_refl _) (by omega) (Nat.le_refl _)
    · simp only [Item.units, mkItem, hp, List.map_cons, List.map_nil, List.pairwise_cons, List.mem_singleton, forall_eq, List.Pairwise.nil, and_true,
          List.not_mem_nil, false_implies, implies_true]
      intro c hc1 hc2
      exact (z1 sa (plain hc1)).apart (z2 sb (plain hc2))
    · intro hr; simp [Item.isRef, mkItem, hp] at hr
    · intro hl
      have := allocOff_room (t := t) hso
      refine ⟨this.1, ?_⟩
      simp only [nextSo, hm, ht, and_self, if_true]; exact Nat.le_refl _

theorem nextC_ge (t : Ty) (p : Pos) (soC : Nat) : soC ≤ nextC t p soC := by
  unfold nextC
  split
  · have := allocOff_size (so := soC) (t := t); omega
  · exact Nat.le_refl _

theorem nextSo_ge (t : Ty) (p : Pos) (so : Nat) (h : so % 8 = 0) : so ≤ nextSo t p so ∧ nextSo t p so % 8 = 0 := by
  have := allocOff_room (t := t) h
  unfold nextSo
  split <;> omega

theorem finC_ge : ∀ (ts : List Ty) (ps : List Pos) (soC : Nat), soC ≤ finC ts ps soC
  | [], _, _ => Nat.le_refl _
  | _ :: _, [], _ => Nat.le_refl _
  | t :: ts, p :: ps, soC => by
    rw [finC]
    exact Nat.le_trans (nextC_ge t p soC) (finC_ge ts ps _)

theorem finSo_ge : ∀ (ts : List Ty) (ps : List Pos) (so : Nat), so % 8 = 0 → so ≤ finSo ts ps so
  | [], _, _, _ => Nat.le_refl _
  | _ :: _, [], _, _ => Nat.le_refl _
  | t :: ts, p :: ps, so, h => by
    rw [finSo]
    have := nextSo_ge t p so h
    exact Nat.le_trans this.1 (finSo_ge ts ps _ this.2)

theorem Facts.mono {sp fpc : Int} {it : Item} {i n nx nx' nv nv' ns ns' soC soC' so so' j m mx mx' mv mv' ms ms' sC sC' s s' : Nat}
    (h : Facts sp fpc it i n nx nx' nv nv' ns ns' soC soC' so so') (h1 : j ≤ i) (h2 : n ≤ m) (h3 : mx ≤ nx) (h4 : nx' ≤ mx') (h5 : mv ≤ nv)
    (h6 : nv' ≤ mv') (h7 : ms ≤ ns) (h8 : ns' ≤ ms') (h9 : sC ≤ soC) (h10 : soC' ≤ sC') (h11 : s ≤ so) (h12 : so' ≤ s') :
    Facts sp fpc it j m mx mx' mv mv' ms ms' sC sC' s s' :=
  ⟨by have := h.ge; omega, by have := h.lt; omega, h.shape, h.P, fun u hu c hc => (h.slot u hu c hc).mono h3 h4 h5 h6 h7 h8, h.pw,
    fun hr => by obtain ⟨o, a, b, c, d⟩ := h.ref hr; exact ⟨o, a, b, by omega, by omega⟩, fun hl => by have := h.loc hl; omega⟩

theorem mkItems_facts {sp fpc : Int} {ts : List Ty} {nx nv ns nx' nv' ns' : Nat} {ps : List Pos} (h : Run ts nx nv ns ps nx' nv' ns') (hc : Cnt nx nv ns) :
    ∀ i soC so, so % 8 = 0 →
    (∀ it ∈ mkItems fpc i ts ps soC so, Facts sp fpc it i (i + ts.length) nx nx' nv nv' ns ns' soC (finC ts ps soC) so (finSo ts ps so)) ∧
    ((mkItems fpc i ts ps soC so).Pairwise fun a b => a.i < b.i ∧
      (∀ u ∈ a.units, ∀ v ∈ b.units, ∀ c, u.cells sp c → ¬ v.cells sp c) ∧
      (a.isRef = true → b.isRef = true → b.cp + (sizeOf b.t : Int) ≤ a.cp) ∧ (a.isLocal = true → b.isLocal = true → a.lo + b.lsz ≤ b.lo)) ∧
    ∀ (j : Nat) (t : Ty), ts[j]? = some t ↔ ∃ it ∈ mkItems fpc i ts ps soC so, it.i = i + j ∧ it.t = t := by
  induction h with
  | nil => intro i soC so _; simp [mkItems]
  | @cons t ts _ _ _ p _ _ _ ps _ _ _ h hR ih =>
    intro i soC so hso
    have hm := h.mono hc.1 hc.2.1 hc.2.2.1 hc.2.2.2
    have hC := nextC_ge t p soC
    have hS := nextSo_ge t p so hso
    have f0 := one_facts (sp := sp) (fpc := fpc) h hc i soC so hso
    obtain ⟨i1, i2, i3⟩ := ih (h.cnt hc) (i + 1) (nextC t p soC) (nextSo t p so) hS.2
    have g := hR.ge (h.cnt hc)
    have gC := finC_ge ts ps (nextC t p soC)
    have gS := finSo_ge ts ps (nextSo t p so) hS.2
    have hlen : i + (t :: ts).length = i + 1 + ts.length := by simp; omega
    rw [mkItems, finC, finSo, hlen]
    refine ⟨?_, ?_, ?_⟩
    · intro it hit
      rcases List.mem_cons.1 hit with rfl | hit
      · exact f0.mono (Nat.le_refl _) (by omega) (Nat.le_refl _) (by omega) (Nat.le_refl _) (by omega) (Nat.le_refl _) (by omega)
          (Nat.le_refl _) gC (Nat.le_refl _) gS
      · exact (i1 it hit).mono (by omega) (Nat.le_refl _) (by omega) (Nat.le_refl _) (by omega) (Nat.le_refl _) (by omega) (Nat.le_refl _)
          hC (Nat.le_refl _) hS.1 (Nat.le_refl _)
    · refine List.pairwise_cons.2 ⟨?_, i2⟩
      intro b hb
      have f := i1 b hb
      refine ⟨by have := f.ge; have := f0.lt; omega, ?_, ?_, ?_⟩
      · intro u hu v hv c hc hc'
        exact (f0.slot u hu c hc).apart (f.slot v hv c hc')
      · intro ha hb'
        obtain ⟨o, _, e1, _, l1⟩ := f0.ref ha
        obtain ⟨o', _, e2, l2, _⟩ := f.ref hb'
        rw [e1, e2]; omega
      · intro ha hb'
        have a1 := f0.loc ha
        have a2 := f.loc hb'
        omega
    · intro j t'
      cases j with
      | zero =>
        simp only [List.getElem?_cons_zero, Option.some.injEq, Nat.add_zero]
        constructor
        · rintro rfl; exact ⟨_, List.mem_cons_self .., rfl, rfl⟩
        · rintro ⟨it, hit, h1, h2⟩
          rcases List.mem_cons.1 hit with rfl | hit'
          · exact h2
          · have := (i1 it hit').ge; omega
      | succ j =>
        rw [List.getElem?_cons_succ, i3 j t']
        constructor
        · rintro ⟨it, hit, h1, h2⟩; exact ⟨it, List.mem_cons_of_mem _ hit, by omega, h2⟩
        · rintro ⟨it, hit, h1, h2⟩
          rcases List.mem_cons.1 hit with rfl | hit'
          · have : (mkItem fpc i t p soC so).i = i := rfl
            omega
          · exact ⟨it, hit', by omega, h2⟩

/-! ### Everything is apart -/

/-- The address for the result. -/
def xItem (n : Nat) : Item := { i := n, t := .scal .i64, pl := .parts [(.gp 0, 0, 8)], P := fieldByte (.scal .i64) }

/-- The general registers taken before the first argument. -/
def nx0 (b : Bool) : Nat := if b then 1 else 0

def allItems (fpc : Int) (b : Bool) (ts : List Ty) (ps : List Pos) (soC so : Nat) : List Item :=
  (if b then [xItem ts.length] else []) ++ mkItems fpc 0 ts ps soC so

theorem cnt0 (b : Bool) : Cnt (nx0 b) 0 32 := ⟨by unfold nx0; split <;> omega, by omega, rfl, Nat.le_refl _⟩

theorem xCells {sp : Int} {n : Nat} {u : U} (hu : u ∈ (xItem n).units) {c : CL} (h : u.cells sp c) : ∃ k, c = .gp 0 k := by
  simp only [xItem, Item.units, List.map_cons, List.map_nil, List.mem_singleton] at hu
  subst hu
  obtain ⟨k, _, rfl⟩ := cells_plain h
  exact ⟨k, rfl⟩

theorem zone1 {sp : Int} {nx' nv' ns' : Nat} {c : CL} (h : Zone sp 1 nx' 0 nv' 32 ns' c) (h' : ∃ k, c = .gp 0 k) : False := by
  obtain ⟨k, rfl⟩ := h'
  rcases h with ⟨r', k', e, _, _⟩ | ⟨r', k', e, _, _⟩ | ⟨x, e, _, _⟩ <;> cases e; omega

theorem allItems_cases {fpc : Int} {b : Bool} {ts : List Ty} {ps : List Pos} {soC so : Nat} {it : Item} (h : it ∈ allItems fpc b ts ps soC so) :
    (b = true ∧ it = xItem ts.length) ∨ it ∈ mkItems fpc 0 ts ps soC so := by
  unfold allItems at h
  rcases List.mem_append.1 h with h | h
  · split at h
    · rename_i hb; exact .inl ⟨hb, List.mem_singleton.1 h⟩
    · cases h
  · exact .inr h

theorem all_lists {sp fpc : Int} {b : Bool} {ts : List Ty} {ps : List Pos} {soC so nx' nv' ns' : Nat} (hr : Run ts (nx0 b) 0 32 ps nx' nv' ns') (hso : so % 8 = 0) :
    Lists (Arm.allTypes b ts) (allItems fpc b ts ps soC so) := by
  obtain ⟨F, PW, L⟩ := mkItems_facts (sp := sp) (fpc := fpc) hr (cnt0 b) 0 soC so hso
  intro i t
  unfold Arm.allTypes
  constructor
  · intro h
    by_cases hi : i < ts.length
    · rw [List.getElem?_append_left hi] at h
      obtain ⟨it, hit, h1, h2⟩ := (L i t).1 h
      exact ⟨it, List.mem_append_right _ hit, by omega, h2⟩
    · rw [List.getElem?_append_right (by omega)] at h
      cases b with
      | false => simp at h
      | true =>
        obtain ⟨h1, h2⟩ := List.getElem?_eq_some_iff.1 h
        simp only [if_true, List.length_singleton] at h1
        have : i = ts.length := by omega
        subst this
        simp at h2
        exact ⟨xItem ts.length, by simp [allItems], rfl, h2⟩
  · rintro ⟨it, hit, rfl, rfl⟩
    rcases allItems_cases hit with ⟨rfl, rfl⟩ | hit
    · simp [xItem]
    · have := (F it hit).lt
      rw [List.getElem?_append_left (by omega)]
      exact (L it.i it.t).2 ⟨it, hit, by omega, rfl⟩

theorem good {sp : Int} {b : Bool} {ts : List Ty} {ps : List Pos} {soC soC' so nx' nv' ns' argb : Nat} {s0 : State} {adr : Nat → Int} {ec : Env} (hsp : ec.sp = sp)
    (hr : Run ts (nx0 b) 0 32 ps nx' nv' ns') (hab : ns' ≤ argb + 32) (hso : so % 8 = 0) (hC : finC ts ps soC ≤ soC') (hfr : sp + argb ≤ ec.fp - soC')
    (hs : Sent ts adr (Used sp ec.fp argb soC soC' (finSo ts ps so)) s0) :
    Good sp (keepS (Used sp ec.fp argb soC soC' (finSo ts ps so))) s0 adr ec (allItems ec.fp b ts ps soC so) := by
  obtain ⟨F, PW, L⟩ := mkItems_facts (sp := sp) (fpc := ec.fp) hr (cnt0 b) 0 soC so hso
  have hfg := hr.ge (cnt0 b)
  have notS : ∀ {a : Int}, Used sp ec.fp argb soC soC' (finSo ts ps so) a →
      ¬ keepS (Used sp ec.fp argb soC soC' (finSo ts ps so)) (.mem a) := by
    rintro a h (⟨i, k, e⟩ | ⟨b, e, h'⟩)
    · cases e
    · cases e; exact h' h
  have regS : ∀ {used : Int → Prop} {c : CL}, (∀ v k, c ≠ .var v k) → (∀ a, c ≠ .mem a) → ¬ keepS used c := by
    rintro used c h1 h2 (⟨i, k, e⟩ | ⟨b, e, _⟩)
    · exact h1 _ _ e
    · exact h2 _ e
  -- the item for the result
  have xr : ∀ n, (xItem n).isRef = false := fun _ => rfl
  have xl : ∀ n, (xItem n).isLocal = false := fun _ => rfl
  have units_zone : ∀ u ∈ (allItems ec.fp b ts ps soC so).flatMap Item.units, ∀ c, u.cells sp c →
      (∃ k, c = .gp 0 k) ∨ Zone sp 0 8 0 8 32 (argb + 32) c := by
    intro u hu c hc
    obtain ⟨it, hit, hu'⟩ := List.mem_flatMap.1 hu
    rcases allItems_cases hit with ⟨_, rfl⟩ | hit
    · exact .inl (xCells hu' hc)
    · exact .inr (((F it hit).slot u hu' c hc).mono (Nat.zero_le _) hfg.2.1 (Nat.le_refl _) hfg.2.2.2.1 (Nat.le_refl _) hab)
  have pairs : ∀ {R : Item → Item → Prop}, (∀ a b, R a b) ∨ ((mkItems ec.fp 0 ts ps soC so).Pairwise R ∧
      (b = true → ∀ x ∈ mkItems ec.fp 0 ts ps soC so, R (xItem ts.length) x)) → (allItems ec.fp b ts ps soC so).Pairwise R := by
    intro R h
    rcases h with h | ⟨h1, h2⟩
    · exact List.pairwise_of_forall fun {a b} => h a b
    · unfold allItems
      cases b with
      | false => simpa using h1
      | true => simpa using ⟨h2 rfl, h1⟩
  refine ⟨pairs (.inr ⟨PW.imp fun h => Nat.ne_of_lt h.1, fun _ x hx => by have := (F x hx).lt; show ts.length ≠ x.i; omega⟩),
    ?_, ?_, fun it _ k => .inl ⟨_, _, rfl⟩, ?_, ?_, ?_, ?_, ?_, ?_, ?_, ?_, ?_, ?_, ?_, ?_⟩
  · intro it hit
    rcases allItems_cases hit with ⟨_, rfl⟩ | hit
    · refine ⟨?_, trivial⟩
      unfold PartsOk xItem
      simp [Ty.ind, sizeOf, Scal.size]
    · exact (F it hit).shape
  · intro it hit k hk
    rcases allItems_cases hit with ⟨_, rfl⟩ | hit
    · simpa [xItem, fieldByte, sizeOf] using hk
    · rw [(F it hit).P] at hk; exact fieldByte_lt _ _ hk
  · intro it hit ht
    rcases allItems_cases hit with ⟨_, rfl⟩ | hit
    · cases ht
    · have := hs.object it.i it.t ((L it.i it.t).2 ⟨it, hit, by omega, rfl⟩) ht
      exact ⟨this.1, fun k hk => .inr ⟨_, rfl, this.2 k hk⟩⟩
  · rintro c (⟨i, k, rfl⟩ | ⟨a, rfl, _⟩)
    · exact .inl ⟨i, k, rfl⟩
    · exact .inr ⟨a, rfl⟩
  · rw [List.flatMap_def, List.pairwise_flatten]
    refine ⟨?_, ?_⟩
    · intro l hl
      obtain ⟨it, hit, rfl⟩ := List.mem_map.1 hl
      rcases allItems_cases hit with ⟨_, rfl⟩ | hit
      · exact List.pairwise_singleton ..
      · exact (F it hit).pw
    · rw [List.pairwise_map]
      refine pairs (.inr ⟨PW.imp fun h u hu v hv => h.2.1 u hu v hv, ?_⟩)
      intro hb x hx u hu v hv c hc hc'
      subst hb
      exact zone1 ((F x hx).slot v hv c hc') (xCells hu hc)
  · intro u hu c hc
    rcases units_zone u hu c hc with ⟨k, rfl⟩ | ⟨r, k, rfl, _, _⟩ | ⟨r, k, rfl, _, _⟩ | ⟨a, rfl, h1, h2⟩
    · exact regS (by simp) (by simp)
    · exact regS (by simp) (by simp)
    · exact regS (by simp) (by simp)
    · refine notS (.inl ⟨by omega, by omega⟩)
  · intro it hit hr' s
    rcases allItems_cases hit with ⟨_, rfl⟩ | hit
    · cases hr'
    · obtain ⟨o, e1, e2, _⟩ := (F it hit).ref hr'
      rw [e1, e2]; simp [Opd.loc, Int.sub_eq_add_neg]
  · refine pairs (.inr ⟨PW.imp ?_, fun _ x hx h => by cases h⟩)
    rintro a b h ha hb c ⟨k, hk, rfl⟩ ⟨k', hk', e⟩
    have := h.2.2.1 ha hb
    simp only [CL.mem.injEq] at e; omega
  · rintro it hit hr c ⟨k, hk, rfl⟩
    rcases allItems_cases hit with ⟨_, rfl⟩ | hit
    · cases hr
    · obtain ⟨o, e1, e2, h1, h2⟩ := (F it hit).ref hr
      exact notS (.inr ⟨by omega, by omega⟩)
  · rintro it hit hr u hu c ⟨k, hk, rfl⟩ hc
    rcases allItems_cases hit with ⟨_, rfl⟩ | hit
    · cases hr
    · obtain ⟨o, e1, e2, h1, h2⟩ := (F it hit).ref hr
      rcases units_zone u hu _ hc with ⟨k, e⟩ | ⟨r, k, e, _, _⟩ | ⟨r, k, e, _, _⟩ | ⟨a, e, h1, h2⟩
      · cases e
      · cases e
      · cases e
      · simp only [CL.mem.injEq] at e; omega
  · refine pairs (.inr ⟨PW.imp ?_, fun _ x hx h => by cases h⟩)
    rintro a b h ha hb c ⟨k, hk, rfl⟩ ⟨k', hk', e⟩
    have := h.2.2.2 ha hb
    simp only [CL.mem.injEq] at e; omega
  · rintro it hit hl c ⟨k, hk, rfl⟩
    rcases allItems_cases hit with ⟨_, rfl⟩ | hit
    · cases hl
    · have := (F it hit).loc hl
      exact notS (.inl ⟨by omega, by omega⟩)
  · rintro it hit hl u hu c ⟨k, hk, rfl⟩ hc
    rcases allItems_cases hit with ⟨_, rfl⟩ | hit
    · cases hl
    · have := (F it hit).loc hl
      rcases units_zone u hu _ hc with ⟨k, e⟩ | ⟨r, k, e, _, _⟩ | ⟨r, k, e, _, _⟩ | ⟨a, e, h1, h2⟩
      · cases e
      · cases e
      · cases e
      · simp only [CL.mem.injEq] at e; omega
  · rintro a ha hl b hb hr c ⟨k, hk, rfl⟩ ⟨k', hk', e⟩
    rcases allItems_cases ha with ⟨_, rfl⟩ | ha
    · cases hl
    rcases allItems_cases hb with ⟨_, rfl⟩ | hb
    · cases hr
    have := (F a ha).loc hl
    obtain ⟨o, e1, e2, h1, h2⟩ := (F b hb).ref hr
    simp only [CL.mem.injEq] at e; omega

end Nature.Abi.Rv
