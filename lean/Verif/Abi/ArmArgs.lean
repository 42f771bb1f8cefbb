import Verif.Abi.ArmLemmas
import Verif.Abi.Ret
/-
arm64: the two sides meet.
-/
namespace Nature.Abi.Arm
open Nature.TypeLayout

def mkItem (fpc : Int) (i : Nat) (t : Ty) (pos soC so : Nat) : Item :=
  { i := i, t := t, pl := placeOf t pos, cpx := .slot (-(allocOff soC t : Int)), cp := fpc - allocOff soC t, lo := allocOff so t, lsz := room t }

def nextC (t : Ty) (pos soC : Nat) : Nat := if pos % 2 = 1 then allocOff soC t else soC
def nextSo (t : Ty) (pos so : Nat) : Nat :=
  match placeOf t pos with
  | .parts _ => if t.ind then allocOff so t else so
  | _ => so

def mkItems (fpc : Int) : (i : Nat) → List Ty → List Nat → (soC so : Nat) → List Item
  | i, t :: ts, p :: ps, soC, so => mkItem fpc i t p soC so :: mkItems fpc (i + 1) ts ps (nextC t p soC) (nextSo t p so)
  | _, _, _, _, _ => []

def finC : List Ty → List Nat → (soC : Nat) → Nat
  | t :: ts, p :: ps, soC => finC ts ps (nextC t p soC)
  | _, _, soC => soC
def finSo : List Ty → List Nat → (so : Nat) → Nat
  | t :: ts, p :: ps, so => finSo ts ps (nextSo t p so)
  | _, _, so => so

theorem Case.place {t : Ty} {nx nv ns pos nx' nv' ns' : Nat} (h : Case t nx nv ns pos nx' nv' ns') (hs : 32 ≤ ns) (hn : ns % 8 = 0) :
    (t.ind = true ∧ pos % 2 = 1 ∧ nx < 8 ∧ nx' = nx + 1 ∧ pos < 16 ∧ pos / 2 = nx ∧ placeOf t pos = .ref (.gp nx)) ∨
    (t.ind = true ∧ pos % 2 = 1 ∧ sizeOf t ≠ 1 ∧ sizeOf t ≠ 2 ∧ ns' = ns + 8 ∧ pos = ns + 1 ∧ placeOf t pos = .ref (.stk (ns - 32))) ∨
    (∃ s, t = .scal s ∧ nv < 8 ∧ nv' = nv + 1 ∧ pos = 16 + 2 * nv ∧ placeOf t pos = .parts [(.fp nv, 0, sizeOf t)]) ∨
    (∃ s, t = .scal s ∧ nx < 8 ∧ nx' = nx + 1 ∧ pos = 2 * nx ∧ placeOf t pos = .parts [(.gp nx, 0, sizeOf t)]) ∨
    (∃ s, t = .scal s ∧ ns' = ns + 8 ∧ pos = ns ∧ placeOf t pos = .parts [(.stk (ns - 32), 0, sizeOf t)]) ∨
    (∃ es, t = .agg es ∧ 0 < (hfa t).1 ∧ nv + (hfa t).1 = nv' ∧ nv' ≤ 8 ∧ pos = 16 + 2 * nv ∧ placeOf t pos = .parts (fpParts t nv)) ∨
    (∃ es n, t = .agg es ∧ 0 < sizeOf t ∧ sizeOf t ≤ 8 * n ∧ n ≤ 2 ∧ (8 < sizeOf t → n = 2) ∧ nx + n = nx' ∧ nx' ≤ 8 ∧ pos = 2 * nx ∧ nx < 8 ∧
      placeOf t pos = .parts (gpParts t nx)) ∨
    (∃ es, t = .agg es ∧ 8 < sizeOf t ∧ sizeOf t ≤ 16 ∧ ns' = ns + 16 ∧ pos = ns ∧ placeOf t pos = .whole (ns - 32)) := by
  cases h with
  | refReg h1 h2 =>
    left
    refine ⟨h1, by omega, h2, rfl, by omega, by omega, ?_⟩
    unfold placeOf
    rw [if_pos (by omega), if_neg (by omega), if_pos (by omega)]
    congr 2; omega
  | refStk h1 h2 h3 =>
    right; left
    refine ⟨h1, by omega, h2, h3, rfl, rfl, ?_⟩
    unfold placeOf
    rw [if_neg (by omega), if_neg (by omega), if_pos (by omega)]
    congr 2; omega
  | fpReg s h1 h2 h3 =>
    right; right; left
    refine ⟨s, h1, h3, rfl, rfl, ?_⟩
    subst h1
    unfold placeOf
    rw [if_neg (by omega), if_pos (by omega), if_neg (by simp [Ty.isAgg])]
    congr 4; omega
  | gpReg s h1 h2 h3 =>
    right; right; right; left
    refine ⟨s, h1, h3, rfl, rfl, ?_⟩
    subst h1
    unfold placeOf
    rw [if_pos (by omega), if_neg (by simp [Ty.isAgg]), if_neg (by omega)]
    congr 4; omega
  | stk s h1 h2 =>
    right; right; right; right; left
    refine ⟨s, h1, rfl, rfl, ?_⟩
    subst h1
    unfold placeOf
    rw [if_neg (by omega), if_neg (by omega), if_neg (by omega), if_neg (by simp [Ty.ind])]
    congr 4; omega
  | fps es h1 h2 h3 =>
    right; right; right; right; right; left
    refine ⟨es, h1, h2, rfl, h3, rfl, ?_⟩
    unfold placeOf
    rw [if_neg (by omega), if_pos (by omega), if_pos (by rw [h1]; rfl)]
    congr 2; omega
  | gps es n h1 h2 h3 h4 h5 h6 =>
    right; right; right; right; right; right; left
    refine ⟨es, n, h1, h2, h3, h4, h5, rfl, h6, rfl, by omega, ?_⟩
    unfold placeOf
    rw [if_pos (by omega), if_pos ⟨by rw [h1]; rfl, by omega⟩]
    congr 2; omega
  | whole es nx' nv' h1 h2 h3 =>
    right; right; right; right; right; right; right
    refine ⟨es, h1, h2, h3, rfl, rfl, ?_⟩
    unfold placeOf
    rw [if_neg (by omega), if_neg (by omega), if_neg (by omega), if_pos (by rw [h1]; rfl)]
    congr 1; omega

theorem varSize_scal {s : Scal} : varSize (.scal s) = sizeOf (.scal s) := by simp [varSize, Ty.ind]

/-- One argument: what is emitted for it. -/
theorem Case.ops {t : Ty} {nx nv ns pos nx' nv' ns' : Nat} (h : Case t nx nv ns pos nx' nv' ns') (hs : 32 ≤ ns) (hn : ns % 8 = 0)
    (fpc : Int) (i soC so : Nat) :
    (if pos % 2 = 1 then allocOp soC t (.work i 0) :: memMov i (sizeOf t) (.work i 0) (.actual i) else []) = (mkItem fpc i t pos soC so).copyOps ∧
    stackArg i t pos = some ((((mkItem fpc i t pos soC so).units).filter U.isStk).flatMap U.ops) ∧
    regArg i t pos = some ((((mkItem fpc i t pos soC so).units).filter fun u => !u.isStk).flatMap U.ops) ∧
    param i t pos so = some ((mkItem fpc i t pos soC so).inOps, nextSo t pos so) := by
  rcases h.place hs hn with ⟨h1, h2, h3, h4, h5, h6, hp⟩ | ⟨h1, h2, h3, h4, h5, h6, hp⟩ | ⟨s, h1, h2, h3, h4, hp⟩ | ⟨s, h1, h2, h3, h4, hp⟩ |
    ⟨s, h1, h2, h3, hp⟩ | ⟨es, h1, h2, h3, h4, h5, hp⟩ | ⟨es, n, h1, h2, h3, h4, h5, h6, h7, h8, h9, hp⟩ | ⟨es, h1, h2, h3, h4, h5, hp⟩
  · have h7 : pos < 32 := by omega
    have h8 : ¬ (Ty.isAgg t = true ∧ pos % 2 = 0) := by omega
    refine ⟨?_, ?_, ?_, ?_⟩
    · simp [h2, mkItem, Item.copyOps, hp, allocOp]
    · simp [stackArg, h7, mkItem, Item.units, hp, U.isStk, PL.isStk]
    · simp [regArg, h5, h2, h6, h1, mkItem, Item.units, hp, U.isStk, PL.isStk, U.ops, PL.opd]
    · simp [param, h5, h8, h6, h1, mkItem, Item.inOps, hp, nextSo, PL.opdIn]
  · subst h6
    have e1 : ¬ ns + 1 < 32 := by omega
    have e2 : ¬ ns + 1 < 16 := by omega
    have e3 : ns + 1 - (ns + 1) % 2 - 32 = ns - 32 := by omega
    have e4 : varSize t = 8 := by simp [varSize, h1, h3, h4]
    refine ⟨?_, ?_, ?_, ?_⟩
    · simp [h2, mkItem, Item.copyOps, hp, allocOp]
    · simp [stackArg, e1, h2, h1, h3, h4, e4, mkItem, Item.units, hp, U.isStk, PL.isStk, List.filter_cons, U.ops, PL.opd]
    · simp [regArg, e1, e2, mkItem, Item.units, hp, U.isStk, PL.isStk]
    · simp [param, e1, e2, h2, e4, mkItem, Item.inOps, hp, nextSo, PL.opdIn]
  · subst h1; subst h4
    have e0 : ¬ (16 + 2 * nv) % 2 = 1 := by omega
    have e1 : 16 + 2 * nv < 32 := by omega
    have e2 : ¬ 16 + 2 * nv < 16 := by omega
    have e3 : (16 + 2 * nv) / 2 - 8 = nv := by omega
    refine ⟨?_, ?_, ?_, ?_⟩
    · rw [if_neg e0]; simp [mkItem, Item.copyOps, hp]
    · simp only [stackArg, e1, if_true, mkItem, Item.units, hp]; simp [U.isStk, PL.isStk]
    · simp only [regArg, e1, e2, e3, if_true, if_false, mkItem, Item.units, hp]; simp [Ty.isAgg, Ty.ind, U.isStk, PL.isStk, U.ops, PL.opd]
    · simp only [param, e1, e2, e3, if_true, if_false, mkItem, Item.inOps, hp, nextSo]; simp [Ty.isAgg, Ty.ind, PL.opdIn]
  · subst h1; subst h4
    have e0 : ¬ (2 * nx) % 2 = 1 := by omega
    have e1 : 2 * nx < 32 := by omega
    have e2 : 2 * nx < 16 := by omega
    have e3 : 2 * nx / 2 = nx := by omega
    refine ⟨?_, ?_, ?_, ?_⟩
    · rw [if_neg e0]; simp [mkItem, Item.copyOps, hp]
    · simp only [stackArg, e1, if_true, mkItem, Item.units, hp]; simp [U.isStk, PL.isStk]
    · simp only [regArg, e0, e2, e3, if_true, if_false, mkItem, Item.units, hp]; simp [Ty.isAgg, Ty.ind, U.isStk, PL.isStk, U.ops, PL.opd]
    · simp only [param, e2, e3, if_true, mkItem, Item.inOps, hp, nextSo]; simp [Ty.isAgg, Ty.ind, PL.opdIn]
  · subst h1; subst h3
    have e0 : ¬ pos % 2 = 1 := by omega
    have e1 : ¬ pos < 32 := by omega
    have e2 : ¬ pos < 16 := by omega
    have e3 : pos - pos % 2 - 32 = pos - 32 := by omega
    have e4 : sizeOf (.scal s) ≤ 8 := by cases s <;> simp [sizeOf, Scal.size]
    refine ⟨?_, ?_, ?_, ?_⟩
    · rw [if_neg e0]; simp [mkItem, Item.copyOps, hp]
    · simp only [stackArg, e0, e1, e3, e4, if_false, or_true, if_true, mkItem, Item.units, hp]
      simp [Ty.ind, U.isStk, PL.isStk, List.filter_cons, U.ops, PL.opd, varSize_scal]
    · simp only [regArg, e1, e2, if_false, mkItem, Item.units, hp]; simp [U.isStk, PL.isStk]
    · simp only [param, e1, e2, e3, e4, if_false, or_true, if_true, mkItem, Item.inOps, hp, nextSo]; simp [Ty.ind, PL.opdIn, varSize_scal]
  · have e5 : t.ind = true := by rw [h1]; rfl
    have e6 : Ty.isAgg t = true := by rw [h1]; rfl
    have e0 : ¬ pos % 2 = 1 := by omega
    have e1 : pos < 32 := by omega
    have e2 : ¬ pos < 16 := by omega
    have e3 : pos / 2 - 8 = nv := by omega
    have e4 : (hfa t).2 = 4 ∨ (hfa t).2 = 8 := by
      rcases hfa_spec t with h | h
      · rw [h] at h2; simp at h2
      · exact h.1
    refine ⟨?_, ?_, ?_, ?_⟩
    · rw [if_neg e0]; simp [mkItem, Item.copyOps, hp]
    · simp only [stackArg, e1, if_true, mkItem, Item.units, hp, fpParts, List.map_map]
      rw [List.filter_eq_nil_iff.2]
      · rfl
      · intro u hu
        obtain ⟨j, _, rfl⟩ := List.mem_map.1 hu
        simp [U.isStk, PL.isStk]
    · simp only [regArg, e1, e2, e3, e4, e6, if_true, if_false, mkItem, Item.units, hp, fpParts, List.map_map]
      rw [List.filter_eq_self.2]
      · rw [List.flatMap_map]
        congr 1
        rw [List.map_eq_flatMap]
        congr 1
        funext j
        simp [U.ops, PL.opd, e5]
      · intro u hu
        obtain ⟨j, _, rfl⟩ := List.mem_map.1 hu
        simp [U.isStk, PL.isStk]
    · simp only [param, e1, e2, e3, e6, if_true, if_false, mkItem, Item.inOps, hp, nextSo, e5, fpParts, List.map_map]
      rfl
  · have e5 : t.ind = true := by rw [h1]; rfl
    have e6 : Ty.isAgg t = true := by rw [h1]; rfl
    have e0 : ¬ pos % 2 = 1 := by omega
    have e0' : pos % 2 = 0 := by omega
    have e1 : pos < 32 := by omega
    have e2 : pos < 16 := by omega
    have e3 : pos / 2 = nx := by omega
    refine ⟨?_, ?_, ?_, ?_⟩
    · rw [if_neg e0]; simp [mkItem, Item.copyOps, hp]
    · simp only [stackArg, e1, if_true, mkItem, Item.units, hp, gpParts]
      split <;> simp [U.isStk, PL.isStk]
    · simp only [regArg, e2, e3, e6, e0', and_self, if_true, mkItem, Item.units, hp, gpParts]
      split <;> simp [U.isStk, PL.isStk, U.ops, PL.opd, e5]
    · simp only [param, e2, e3, e6, e0', and_self, if_true, mkItem, Item.inOps, hp, nextSo, e5, gpParts]
      split <;> simp [allocOp, PL.opdIn]
  · have e5 : t.ind = true := by rw [h1]; rfl
    have e6 : Ty.isAgg t = true := by rw [h1]; rfl
    subst h5
    have e0 : ¬ pos % 2 = 1 := by omega
    have e1 : ¬ pos < 32 := by omega
    have e2 : ¬ pos < 16 := by omega
    have e3 : pos - pos % 2 - 32 = pos - 32 := by omega
    have e4 : ¬ sizeOf t ≤ 8 := by omega
    refine ⟨?_, ?_, ?_, ?_⟩
    · rw [if_neg e0]; simp [mkItem, Item.copyOps, hp]
    · simp only [stackArg, e0, e1, e3, e4, h3, if_false, or_self, if_true, mkItem, Item.units, hp]
      simp [U.isStk, List.filter_cons, U.ops]
    · simp only [regArg, e1, e2, if_false, mkItem, Item.units, hp]; simp [U.isStk]
    · simp only [param, e0, e1, e2, e3, e4, e5, h3, if_false, or_self, and_self, if_true, mkItem, Item.inOps, hp, nextSo]

/-! ### The list of arguments -/

/-- The counters after the arguments. -/
def fin : List Ty → (nx nv ns : Nat) → Nat × Nat × Nat
  | [], nx, nv, ns => (nx, nv, ns)
  | t :: ts, nx, nv, ns => let p := posOf t nx nv ns; fin ts p.2.1 p.2.2.1 p.2.2.2

theorem pcs_fin : ∀ (ts : List Ty) (nx nv ns : Nat), (pcs ts nx nv ns).2 = (fin ts nx nv ns).2.2
  | [], _, _, _ => rfl
  | t :: ts, nx, nv, ns => by rw [pcs, fin]; exact pcs_fin ts _ _ _

/-- The counters are in range. -/
def Cnt (nx nv ns : Nat) : Prop := nx ≤ 8 ∧ nv ≤ 8 ∧ ns % 8 = 0 ∧ 32 ≤ ns

theorem head {t : Ty} {ts : List Ty} {nx nv ns : Nat} (hf : fitsFrom (t :: ts) nx nv ns = true) (hc : Cnt nx nv ns) :
    Case t nx nv ns (posOf t nx nv ns).1 (posOf t nx nv ns).2.1 (posOf t nx nv ns).2.2.1 (posOf t nx nv ns).2.2.2 ∧
    Cnt (posOf t nx nv ns).2.1 (posOf t nx nv ns).2.2.1 (posOf t nx nv ns).2.2.2 ∧
    fitsFrom ts (posOf t nx nv ns).2.1 (posOf t nx nv ns).2.2.1 (posOf t nx nv ns).2.2.2 = true := by
  simp only [fitsFrom, Bool.and_eq_true] at hf
  obtain ⟨c1, c2, c3, c4⟩ := hc
  have h := posOf_case hf.1 c1 c2 c3 c4
  have m := h.mono c1 c2 c3
  exact ⟨h, ⟨m.2.1, m.2.2.2.1, m.2.2.2.2.2, by omega⟩, hf.2⟩

theorem fin_ge : ∀ (ts : List Ty) (nx nv ns : Nat), fitsFrom ts nx nv ns = true → Cnt nx nv ns →
    nx ≤ (fin ts nx nv ns).1 ∧ (fin ts nx nv ns).1 ≤ 8 ∧ nv ≤ (fin ts nx nv ns).2.1 ∧ (fin ts nx nv ns).2.1 ≤ 8 ∧ ns ≤ (fin ts nx nv ns).2.2
  | [], nx, nv, ns, _, hc => by simp only [fin]; exact ⟨Nat.le_refl _, hc.1, Nat.le_refl _, hc.2.1, Nat.le_refl _⟩
  | t :: ts, nx, nv, ns, hf, hc => by
    obtain ⟨h, hc', hf'⟩ := head hf hc
    have m := h.mono hc.1 hc.2.1 hc.2.2.1
    have := fin_ge ts _ _ _ hf' hc'
    rw [fin]
    omega

theorem ops_eq (fpc : Int) : ∀ (ts : List Ty) (i nx nv ns soC so : Nat), fitsFrom ts nx nv ns = true → Cnt nx nv ns →
    copies i ts (pcs ts nx nv ns).1 soC = ((mkItems fpc i ts (pcs ts nx nv ns).1 soC so).flatMap Item.copyOps, finC ts (pcs ts nx nv ns).1 soC) ∧
    each stackArg i ts (pcs ts nx nv ns).1 =
      some ((((mkItems fpc i ts (pcs ts nx nv ns).1 soC so).flatMap Item.units).filter U.isStk).flatMap U.ops) ∧
    each regArg i ts (pcs ts nx nv ns).1 =
      some ((((mkItems fpc i ts (pcs ts nx nv ns).1 soC so).flatMap Item.units).filter fun u => !u.isStk).flatMap U.ops) ∧
    params i ts (pcs ts nx nv ns).1 so =
      some ((mkItems fpc i ts (pcs ts nx nv ns).1 soC so).flatMap Item.inOps, finSo ts (pcs ts nx nv ns).1 so)
  | [], i, nx, nv, ns, soC, so, _, _ => by simp [copies, each, params, mkItems, finC, finSo]
  | t :: ts, i, nx, nv, ns, soC, so, hf, hc => by
    obtain ⟨h, hc', hf'⟩ := head hf hc
    rw [pcs]
    dsimp only
    generalize hp : posOf t nx nv ns = p at h hc' hf' ⊢
    obtain ⟨h1, h2, h3, h4⟩ := h.ops hc.2.2.2 hc.2.2.1 fpc i soC so
    obtain ⟨i1, i2, i3, i4⟩ := ops_eq fpc ts (i + 1) p.2.1 p.2.2.1 p.2.2.2 (nextC t p.1 soC) (nextSo t p.1 so) hf' hc'
    refine ⟨?_, ?_, ?_, ?_⟩
    · rw [copies, mkItems, finC, List.flatMap_cons, ← h1]
      unfold nextC at i1 ⊢
      split
      · rename_i hodd
        rw [if_pos hodd] at i1
        rw [i1]
      · rename_i hodd
        rw [if_neg hodd] at i1
        rw [i1]
        rfl
    · simp only [each, mkItems, List.flatMap_cons, List.filter_append, List.flatMap_append]
      rw [h2, i2]; rfl
    · simp only [each, mkItems, List.flatMap_cons, List.filter_append, List.flatMap_append]
      rw [h3, i3]; rfl
    · simp only [params, mkItems, List.flatMap_cons, finSo]
      rw [h4]
      simp only [Option.bind_eq_bind, Option.bind_some, i4]

/-- What arguments between two states of the counters may take. -/
def Zone (sp : Int) (nx nx' nv nv' ns ns' : Nat) (c : CL) : Prop :=
  (∃ r k, c = .gp r k ∧ nx ≤ r ∧ r < nx') ∨ (∃ r k, c = .fp r k ∧ nv ≤ r ∧ r < nv') ∨ ∃ a, c = .mem a ∧ sp + ns - 32 ≤ a ∧ a < sp + ns' - 32

theorem Zone.mono {sp : Int} {nx nx' nv nv' ns ns' mx mx' mv mv' ms ms' : Nat} {c : CL} (h : Zone sp nx nx' nv nv' ns ns' c)
    (h1 : mx ≤ nx) (h2 : nx' ≤ mx') (h3 : mv ≤ nv) (h4 : nv' ≤ mv') (h5 : ms ≤ ns) (h6 : ns' ≤ ms') : Zone sp mx mx' mv mv' ms ms' c := by
  rcases h with ⟨r, k, rfl, a, b⟩ | ⟨r, k, rfl, a, b⟩ | ⟨x, rfl, a, b⟩
  · exact .inl ⟨r, k, rfl, by omega, by omega⟩
  · exact .inr (.inl ⟨r, k, rfl, by omega, by omega⟩)
  · exact .inr (.inr ⟨x, rfl, by omega, by omega⟩)

theorem Zone.apart {sp : Int} {a a' b b' d d' a'' b'' d'' : Nat} {c : CL} (h : Zone sp a a' b b' d d' c) (h' : Zone sp a' a'' b' b'' d' d'' c) : False := by
  rcases h with ⟨r, k, rfl, _, _⟩ | ⟨r, k, rfl, _, _⟩ | ⟨x, rfl, _, _⟩
  · rcases h' with ⟨r', k', e, _, _⟩ | ⟨r', k', e, _, _⟩ | ⟨x, e, _, _⟩ <;> cases e; omega
  · rcases h' with ⟨r', k', e, _, _⟩ | ⟨r', k', e, _, _⟩ | ⟨x, e, _, _⟩ <;> cases e; omega
  · rcases h' with ⟨r', k', e, _, _⟩ | ⟨r', k', e, _, _⟩ | ⟨x, e, _, _⟩ <;> cases e; omega

theorem room_ge (t : Ty) : sizeOf t ≤ room t ∧ 8 ≤ room t := by
  unfold room
  rw [alignUp_eight]
  split <;> omega

theorem allocOff_room {so : Nat} {t : Ty} (h : so % 8 = 0) : so + room t ≤ allocOff so t ∧ allocOff so t % 8 = 0 := by
  unfold allocOff room
  rw [alignUp_eight, alignUp_eight]
  split <;> omega

theorem allocOff_size {so : Nat} {t : Ty} : so + sizeOf t ≤ allocOff so t := by
  unfold allocOff
  rw [alignUp_eight]
  split <;> omega

structure Facts (sp fpc : Int) (it : Item) (i n nx nx' nv nv' ns ns' soC soC' so so' : Nat) : Prop where
  ge : i ≤ it.i
  lt : it.i < n
  shape : it.Shape
  P : it.P = allBytes it.t
  slot : ∀ u ∈ it.units, ∀ c, u.cells sp c → Zone sp nx nx' nv nv' ns ns' c
  pw : it.units.Pairwise fun u v => ∀ c, u.cells sp c → ¬ v.cells sp c
  ref : it.isRef = true → ∃ o : Nat, it.cpx = .slot (-(o : Int)) ∧ it.cp = fpc - o ∧ soC + sizeOf it.t ≤ o ∧ o ≤ soC'
  loc : it.isLocal = true → so + it.lsz ≤ it.lo ∧ it.lo ≤ so'

theorem one_facts {sp fpc : Int} {t : Ty} {nx nv ns pos nx' nv' ns' : Nat} (h : Case t nx nv ns pos nx' nv' ns') (hs : 32 ≤ ns) (hn : ns % 8 = 0)
    (i soC so : Nat) (hso : so % 8 = 0) :
    Facts sp fpc (mkItem fpc i t pos soC so) i (i + 1) nx nx' nv nv' ns ns' soC (nextC t pos soC) so (nextSo t pos so) := by
  have plain : ∀ {l : PL} {n off : Nat} {c : CL}, (U.part i t l off n .plain).cells sp c → (l.loc sp).cover n c := fun h => cells_plain h
  have one : ∀ (l : PL), t.ind = false → (mkItem fpc i t pos soC so).pl = .parts [(l, 0, sizeOf t)] → (mkItem fpc i t pos soC so).Shape := by
    intro l ht hp
    simp only [Item.Shape, hp]
    exact ⟨by unfold PartsOk; simp only [mkItem, ht, Bool.false_eq_true, if_false]; exact ⟨l, rfl⟩, trivial⟩
  rcases h.place hs hn with ⟨h1, h2, h3, h4, h5, h6, hp⟩ | ⟨h1, h2, h3, h4, h5, h6, hp⟩ | ⟨s, h1, h2, h3, h4, hp⟩ | ⟨s, h1, h2, h3, h4, hp⟩ |
    ⟨s, h1, h2, h3, hp⟩ | ⟨es, h1, h2, h3, h4, h5, hp⟩ | ⟨es, n, h1, h2, h3, h4, h5, h6, h7, h8, h9, hp⟩ | ⟨es, h1, h2, h3, h4, h5, hp⟩
  · refine ⟨Nat.le_refl _, Nat.lt_succ_self _, by simp only [Item.Shape, mkItem, hp]; exact h1, rfl, ?_, ?_, ?_, ?_⟩
    · intro u hu c hc
      simp only [Item.units, mkItem, hp, List.mem_singleton] at hu; subst hu
      obtain ⟨k, _, rfl⟩ := hc
      exact .inl ⟨nx, k, rfl, by omega, by omega⟩
    · simp only [Item.units, mkItem, hp]; exact List.pairwise_singleton ..
    · intro _
      refine ⟨_, rfl, rfl, allocOff_size, by simp [nextC, h2]⟩
    · intro hl; simp [Item.isLocal, mkItem, hp] at hl
  · refine ⟨Nat.le_refl _, Nat.lt_succ_self _, by simp only [Item.Shape, mkItem, hp]; exact h1, rfl, ?_, ?_, ?_, ?_⟩
    · intro u hu c hc
      simp only [Item.units, mkItem, hp, List.mem_singleton] at hu; subst hu
      obtain ⟨k, _, rfl⟩ := hc
      exact .inr (.inr ⟨_, rfl, by omega, by omega⟩)
    · simp only [Item.units, mkItem, hp]; exact List.pairwise_singleton ..
    · intro _
      refine ⟨_, rfl, rfl, allocOff_size, by simp [nextC, h2]⟩
    · intro hl; simp [Item.isLocal, mkItem, hp] at hl
  · have ht : t.ind = false := by rw [h1]; rfl
    refine ⟨Nat.le_refl _, Nat.lt_succ_self _, one _ ht hp, rfl, ?_, ?_, ?_, ?_⟩
    · intro u hu c hc
      simp only [Item.units, mkItem, hp, List.map_cons, List.map_nil, List.mem_singleton] at hu; subst hu
      obtain ⟨k, _, rfl⟩ := plain hc
      exact .inr (.inl ⟨nv, k, rfl, by omega, by omega⟩)
    · simp only [Item.units, mkItem, hp]; exact List.pairwise_singleton ..
    · intro hr; simp [Item.isRef, mkItem, hp] at hr
    · intro hl; simp [Item.isLocal, mkItem, hp, ht] at hl
  · have ht : t.ind = false := by rw [h1]; rfl
    refine ⟨Nat.le_refl _, Nat.lt_succ_self _, one _ ht hp, rfl, ?_, ?_, ?_, ?_⟩
    · intro u hu c hc
      simp only [Item.units, mkItem, hp, List.map_cons, List.map_nil, List.mem_singleton] at hu; subst hu
      obtain ⟨k, _, rfl⟩ := plain hc
      exact .inl ⟨nx, k, rfl, by omega, by omega⟩
    · simp only [Item.units, mkItem, hp]; exact List.pairwise_singleton ..
    · intro hr; simp [Item.isRef, mkItem, hp] at hr
    · intro hl; simp [Item.isLocal, mkItem, hp, ht] at hl
  · have ht : t.ind = false := by rw [h1]; rfl
    refine ⟨Nat.le_refl _, Nat.lt_succ_self _, one _ ht hp, rfl, ?_, ?_, ?_, ?_⟩
    · intro u hu c hc
      simp only [Item.units, mkItem, hp, List.map_cons, List.map_nil, List.mem_singleton] at hu; subst hu
      obtain ⟨k, hk, rfl⟩ := plain hc
      have : sizeOf t ≤ 8 := by rw [h1]; cases s <;> simp [sizeOf, Scal.size]
      exact .inr (.inr ⟨_, rfl, by omega, by omega⟩)
    · simp only [Item.units, mkItem, hp]; exact List.pairwise_singleton ..
    · intro hr; simp [Item.isRef, mkItem, hp] at hr
    · intro hl; simp [Item.isLocal, mkItem, hp, ht] at hl
  · have ht : t.ind = true := by rw [h1]; rfl
    obtain ⟨f1, f2, f3, f4⟩ : ((hfa t).2 = 4 ∨ (hfa t).2 = 8) ∧ 0 < (hfa t).1 ∧ (hfa t).1 ≤ 4 ∧ (hfa t).1 * (hfa t).2 = sizeOf t := by
      rcases hfa_spec t with h | h
      · rw [h] at h2; simp at h2
      · exact h
    have mul : ∀ {a b : Nat}, a < b → a * (hfa t).2 + (hfa t).2 ≤ b * (hfa t).2 := by
      intro a b hab
      have := Nat.mul_le_mul_right (hfa t).2 (show a + 1 ≤ b by omega)
      rw [Nat.add_mul] at this
      omega
    refine ⟨Nat.le_refl _, Nat.lt_succ_self _, ?_, rfl, ?_, ?_, ?_, ?_⟩
    · simp only [Item.Shape, mkItem, hp]
      refine ⟨?_, trivial⟩
      unfold PartsOk
      rw [if_pos ht]
      refine ⟨?_, ?_, ?_⟩
      · intro k (hk : k < sizeOf t)
        have hpos : 0 < (hfa t).2 := by omega
        refine ⟨(.fp (nv + k / (hfa t).2), k / (hfa t).2 * (hfa t).2, (hfa t).2), ?_, ?_, ?_⟩
        · refine List.mem_map.2 ⟨k / (hfa t).2, List.mem_range.2 ?_, rfl⟩
          rw [Nat.div_lt_iff_lt_mul hpos]; omega
        · exact Nat.div_mul_le_self k _
        · have d1 := Nat.div_add_mod k (hfa t).2
          have d2 := Nat.mod_lt k hpos
          rw [Nat.mul_comm] at d1
          dsimp only
          omega
      · intro p hp'
        obtain ⟨j, hj, rfl⟩ := List.mem_map.1 hp'
        have := mul (List.mem_range.1 hj)
        have := (room_ge t).1
        dsimp only; omega
      · unfold fpParts
        rw [List.pairwise_map]
        exact List.pairwise_lt_range.imp fun h => mul h
    · intro u hu c hc
      simp only [Item.units, mkItem, hp, fpParts, List.map_map] at hu
      obtain ⟨j, hj, rfl⟩ := List.mem_map.1 hu
      have hj := List.mem_range.1 hj
      obtain ⟨k, _, rfl⟩ := plain hc
      exact .inr (.inl ⟨_, k, rfl, by omega, by omega⟩)
    · simp only [Item.units, mkItem, hp, fpParts, List.map_map]
      rw [List.pairwise_map]
      refine List.pairwise_lt_range.imp ?_
      intro a b hab c hc hc'
      obtain ⟨k, _, rfl⟩ := plain hc
      obtain ⟨k', _, e⟩ := plain hc'
      simp only [Loc.at, PL.loc, CL.fp.injEq] at e
      omega
    · intro hr; simp [Item.isRef, mkItem, hp] at hr
    · intro hl
      have := allocOff_room (t := t) hso
      refine ⟨this.1, ?_⟩
      simp only [nextSo, hp, ht, if_true]; exact Nat.le_refl _
  · have ht : t.ind = true := by rw [h1]; rfl
    refine ⟨Nat.le_refl _, Nat.lt_succ_self _, ?_, rfl, ?_, ?_, ?_, ?_⟩
    · simp only [Item.Shape, mkItem, hp]
      refine ⟨?_, trivial⟩
      unfold PartsOk
      rw [if_pos ht]
      refine ⟨?_, ?_, ?_⟩
      · intro k (hk : k < sizeOf t)
        by_cases h8 : k < 8
        · exact ⟨_, List.mem_cons_self .., by simp, by simpa using h8⟩
        · have : 8 < sizeOf t := by omega
          exact ⟨(.gp (nx + 1), 8, 8), by simp [gpParts, this], by dsimp only; omega, by dsimp only; omega⟩
      · intro p hp'
        unfold gpParts at hp'
        rcases List.mem_cons.1 hp' with rfl | hp'
        · exact (room_ge t).2
        · split at hp'
          · rw [List.mem_singleton] at hp'; subst hp'
            unfold room; rw [alignUp_eight]; dsimp only; split <;> omega
          · cases hp'
      · unfold gpParts; split <;> simp
    · intro u hu c hc
      simp only [Item.units, mkItem, hp, gpParts, List.map_cons] at hu
      rcases List.mem_cons.1 hu with rfl | hu
      · obtain ⟨k, _, rfl⟩ := plain hc
        exact .inl ⟨_, k, rfl, by omega, by omega⟩
      · split at hu
        · rename_i hb
          rw [List.map_cons, List.map_nil, List.mem_singleton] at hu; subst hu
          obtain ⟨k, _, rfl⟩ := plain hc
          have := h5 hb
          exact .inl ⟨_, k, rfl, by omega, by omega⟩
        · cases hu
    · simp only [Item.units, mkItem, hp, gpParts, List.map_cons]
      split
      · simp only [List.map_cons, List.map_nil, List.pairwise_cons, List.mem_singleton, forall_eq, List.Pairwise.nil, and_true,
          List.not_mem_nil, false_implies, implies_true]
        intro c hc hc'
        obtain ⟨k, _, rfl⟩ := plain hc
        obtain ⟨k', _, e⟩ := plain hc'
        simp only [Loc.at, PL.loc, CL.gp.injEq] at e
        omega
      · exact List.pairwise_singleton ..
    · intro hr; simp [Item.isRef, mkItem, hp] at hr
    · intro hl
      have := allocOff_room (t := t) hso
      refine ⟨this.1, ?_⟩
      simp only [nextSo, hp, ht, if_true]; exact Nat.le_refl _
  · have ht : t.ind = true := by rw [h1]; rfl
    refine ⟨Nat.le_refl _, Nat.lt_succ_self _, by simp only [Item.Shape, mkItem, hp]; exact ht, rfl, ?_, ?_, ?_, ?_⟩
    · intro u hu c hc
      simp only [Item.units, mkItem, hp, List.mem_singleton] at hu; subst hu
      obtain ⟨k, hk, rfl⟩ := hc
      exact .inr (.inr ⟨_, rfl, by omega, by omega⟩)
    · simp only [Item.units, mkItem, hp]; exact List.pairwise_singleton ..
    · intro hr; simp [Item.isRef, mkItem, hp] at hr
    · intro hl; simp [Item.isLocal, mkItem, hp] at hl

theorem nextC_ge (t : Ty) (pos soC : Nat) : soC ≤ nextC t pos soC := by
  unfold nextC
  split
  · have := allocOff_size (so := soC) (t := t); omega
  · exact Nat.le_refl _

theorem nextSo_ge (t : Ty) (pos so : Nat) (h : so % 8 = 0) : so ≤ nextSo t pos so ∧ nextSo t pos so % 8 = 0 := by
  have := allocOff_room (t := t) h
  unfold nextSo
  split
  · split <;> omega
  · omega

theorem finC_ge : ∀ (ts : List Ty) (ps : List Nat) (soC : Nat), soC ≤ finC ts ps soC
  | [], _, _ => Nat.le_refl _
  | _ :: _, [], _ => Nat.le_refl _
  | t :: ts, p :: ps, soC => by
    rw [finC]
    exact Nat.le_trans (nextC_ge t p soC) (finC_ge ts ps _)

theorem finSo_ge : ∀ (ts : List Ty) (ps : List Nat) (so : Nat), so % 8 = 0 → so ≤ finSo ts ps so
  | [], _, _, _ => Nat.le_refl _
  | _ :: _, [], _, _ => Nat.le_refl _
  | t :: ts, p :: ps, so, h => by
    rw [finSo]
    have := nextSo_ge t p so h
    exact Nat.le_trans this.1 (finSo_ge ts ps _ this.2)

theorem Facts.mono {sp fpc : Int} {it : Item} {i n nx nx' nv nv' ns ns' soC soC' so so' j m mx mx' mv mv' ms ms' sC sC' s s' : Nat}
    (h : Facts sp fpc it i n nx nx' nv nv' ns ns' soC soC' so so') (h1 : j ≤ i) (h2 : n ≤ m) (h3 : mx ≤ nx) (h4 : nx' ≤ mx') (h5 : mv ≤ nv)
    (h6 : nv' ≤ mv') (h7 : ms ≤ ns) (h8 : ns' ≤ ms') (h9 : sC ≤ soC) (h10 : soC' ≤ sC') (h11 : s ≤ so) (h12 : so' ≤ s') :
    Facts sp fpc it j m mx mx' mv mv' ms ms' sC sC' s s' :=
  ⟨by have := h.ge; omega, by have := h.lt; omega, h.shape, h.P, fun u hu c hc => (h.slot u hu c hc).mono h3 h4 h5 h6 h7 h8, h.pw,
    fun hr => by obtain ⟨o, a, b, c, d⟩ := h.ref hr; exact ⟨o, a, b, by omega, by omega⟩, fun hl => by have := h.loc hl; omega⟩

theorem mkItems_facts {sp fpc : Int} : ∀ (ts : List Ty) (i nx nv ns soC so : Nat), fitsFrom ts nx nv ns = true → Cnt nx nv ns → so % 8 = 0 →
    (∀ it ∈ mkItems fpc i ts (pcs ts nx nv ns).1 soC so, Facts sp fpc it i (i + ts.length) nx (fin ts nx nv ns).1 nv (fin ts nx nv ns).2.1
      ns (fin ts nx nv ns).2.2 soC (finC ts (pcs ts nx nv ns).1 soC) so (finSo ts (pcs ts nx nv ns).1 so)) ∧
    ((mkItems fpc i ts (pcs ts nx nv ns).1 soC so).Pairwise fun a b => a.i < b.i ∧
      (∀ u ∈ a.units, ∀ v ∈ b.units, ∀ c, u.cells sp c → ¬ v.cells sp c) ∧
      (a.isRef = true → b.isRef = true → b.cp + (sizeOf b.t : Int) ≤ a.cp) ∧ (a.isLocal = true → b.isLocal = true → a.lo + b.lsz ≤ b.lo)) ∧
    ∀ (j : Nat) (t : Ty), ts[j]? = some t ↔ ∃ it ∈ mkItems fpc i ts (pcs ts nx nv ns).1 soC so, it.i = i + j ∧ it.t = t
  | [], i, nx, nv, ns, soC, so, _, _, _ => by simp [mkItems]
  | t :: ts, i, nx, nv, ns, soC, so, hf, hc, hso => by
    obtain ⟨h, hc', hf'⟩ := head hf hc
    have hm := h.mono hc.1 hc.2.1 hc.2.2.1
    rw [pcs, fin]
    dsimp only
    generalize hp : posOf t nx nv ns = p at h hc' hf' hm ⊢
    have hC := nextC_ge t p.1 soC
    have hS := nextSo_ge t p.1 so hso
    have f0 := one_facts (sp := sp) (fpc := fpc) h hc.2.2.2 hc.2.2.1 i soC so hso
    obtain ⟨i1, i2, i3⟩ := mkItems_facts (sp := sp) (fpc := fpc) ts (i + 1) p.2.1 p.2.2.1 p.2.2.2 (nextC t p.1 soC) (nextSo t p.1 so) hf' hc' hS.2
    have g := fin_ge ts _ _ _ hf' hc'
    have gC := finC_ge ts (pcs ts p.2.1 p.2.2.1 p.2.2.2).1 (nextC t p.1 soC)
    have gS := finSo_ge ts (pcs ts p.2.1 p.2.2.1 p.2.2.2).1 (nextSo t p.1 so) hS.2
    have hlen : i + (t :: ts).length = i + 1 + ts.length := by simp; omega
    rw [mkItems, finC, finSo, hlen]
    refine ⟨?_, ?_, ?_⟩
    · intro it hit
      rcases List.mem_cons.1 hit with rfl | hit
      · exact f0.mono (Nat.le_refl _) (by omega) (Nat.le_refl _) (by omega) (Nat.le_refl _) (by omega) (Nat.le_refl _) (by omega)
          (Nat.le_refl _) gC (Nat.le_refl _) gS
      · exact (i1 it hit).mono (by omega) (Nat.le_refl _) (by omega) (Nat.le_refl _) (by omega) (Nat.le_refl _) (by omega) (Nat.le_refl _)
          hC (Nat.le_refl _) hS.1 (Nat.le_refl _)
    · refine List.pairwise_cons.2 ⟨?_, i2⟩
      intro b hb
      have f := i1 b hb
      refine ⟨by have := f.ge; have := f0.lt; omega, ?_, ?_, ?_⟩
      · intro u hu v hv c hc hc'
        exact (f0.slot u hu c hc).apart (f.slot v hv c hc')
      · intro ha hb'
        obtain ⟨o, _, e1, _, l1⟩ := f0.ref ha
        obtain ⟨o', _, e2, l2, _⟩ := f.ref hb'
        rw [e1, e2]; omega
      · intro ha hb'
        have a1 := f0.loc ha
        have a2 := f.loc hb'
        omega
    · intro j t'
      cases j with
      | zero =>
        simp only [List.getElem?_cons_zero, Option.some.injEq, Nat.add_zero]
        constructor
        · rintro rfl; exact ⟨_, List.mem_cons_self .., rfl, rfl⟩
        · rintro ⟨it, hit, h1, h2⟩
          rcases List.mem_cons.1 hit with rfl | hit'
          · exact h2
          · have := (i1 it hit').ge; omega
      | succ j =>
        rw [List.getElem?_cons_succ, i3 j t']
        constructor
        · rintro ⟨it, hit, h1, h2⟩; exact ⟨it, List.mem_cons_of_mem _ hit, by omega, h2⟩
        · rintro ⟨it, hit, h1, h2⟩
          rcases List.mem_cons.1 hit with rfl | hit'
          · have : (mkItem fpc i t p.1 soC so).i = i := rfl
            omega
          · exact ⟨it, hit', by omega, h2⟩

/-! ### Everything is apart -/

/-- The address for the result. -/
def xItem (n : Nat) : Item := { i := n, t := .scal .i64, pl := .parts [(.gp 8, 0, 8)] }

def allItems (fpc : Int) (b : Bool) (ts : List Ty) (soC so : Nat) : List Item :=
  (if b then [xItem ts.length] else []) ++ mkItems fpc 0 ts (pcs ts 0 0 32).1 soC so

def allTypes (b : Bool) (ts : List Ty) : List Ty := ts ++ if b then [.scal .i64] else []

/-- The memory a call may use: the arguments on the stack with the called function's storage for parameters, and copies in the
caller's frame. -/
def Used (sp fpc : Int) (argb soC soC' so' : Nat) (a : Int) : Prop :=
  Range (sp - 16 - so') (sp + argb) a ∨ Range (fpc - soC') (fpc - soC) a

theorem cnt0 : Cnt 0 0 32 := ⟨by omega, by omega, rfl, Nat.le_refl _⟩

theorem xCells {sp : Int} {n : Nat} {u : U} (hu : u ∈ (xItem n).units) {c : CL} (h : u.cells sp c) : ∃ k, c = .gp 8 k := by
  simp only [xItem, Item.units, List.map_cons, List.map_nil, List.mem_singleton] at hu
  subst hu
  obtain ⟨k, _, rfl⟩ := cells_plain h
  exact ⟨k, rfl⟩

theorem zone8 {sp : Int} {nx' nv' ns' : Nat} {c : CL} (hx : nx' ≤ 8) (h : Zone sp 0 nx' 0 nv' 32 ns' c) (h' : ∃ k, c = .gp 8 k) : False := by
  obtain ⟨k, rfl⟩ := h'
  rcases h with ⟨r', k', e, _, _⟩ | ⟨r', k', e, _, _⟩ | ⟨x, e, _, _⟩ <;> cases e; omega

theorem argBytes_ge (ts : List Ty) : (fin ts 0 0 32).2.2 ≤ argBytes ts + 32 := by
  unfold argBytes
  rw [pcs_fin]
  have e : ∀ n, n ≤ alignUp n 16 := by
    intro n
    have := alignUp_pow n 4; simp at this; omega
  have := e ((fin ts 0 0 32).2.2 - 32)
  omega

theorem allItems_cases {fpc : Int} {b : Bool} {ts : List Ty} {soC so : Nat} {it : Item} (h : it ∈ allItems fpc b ts soC so) :
    (b = true ∧ it = xItem ts.length) ∨ it ∈ mkItems fpc 0 ts (pcs ts 0 0 32).1 soC so := by
  unfold allItems at h
  rcases List.mem_append.1 h with h | h
  · split at h
    · rename_i hb; exact .inl ⟨hb, List.mem_singleton.1 h⟩
    · cases h
  · exact .inr h

theorem all_lists {sp fpc : Int} {b : Bool} {ts : List Ty} {soC so : Nat} (hf : fits ts = true) (hso : so % 8 = 0) :
    Lists (allTypes b ts) (allItems fpc b ts soC so) := by
  obtain ⟨F, PW, L⟩ := mkItems_facts (sp := sp) (fpc := fpc) ts 0 0 0 32 soC so hf cnt0 hso
  intro i t
  unfold allTypes
  constructor
  · intro h
    by_cases hi : i < ts.length
    · rw [List.getElem?_append_left hi] at h
      obtain ⟨it, hit, h1, h2⟩ := (L i t).1 h
      exact ⟨it, List.mem_append_right _ hit, by omega, h2⟩
    · rw [List.getElem?_append_right (by omega)] at h
      cases b with
      | false => simp at h
      | true =>
        obtain ⟨h1, h2⟩ := List.getElem?_eq_some_iff.1 h
        simp only [if_true, List.length_singleton] at h1
        have : i = ts.length := by omega
        subst this
        simp at h2
        exact ⟨xItem ts.length, by simp [allItems], rfl, h2⟩
  · rintro ⟨it, hit, rfl, rfl⟩
    rcases allItems_cases hit with ⟨rfl, rfl⟩ | hit
    · simp [xItem]
    · have := (F it hit).lt
      rw [List.getElem?_append_left (by omega)]
      exact (L it.i it.t).2 ⟨it, hit, by omega, rfl⟩

theorem good {sp : Int} {b : Bool} {ts : List Ty} {soC soC' so : Nat} {s0 : State} {adr : Nat → Int} {ec : Env} (hsp : ec.sp = sp)
    (hf : fits ts = true) (hso : so % 8 = 0) (hC : finC ts (pcs ts 0 0 32).1 soC ≤ soC') (hfr : sp + argBytes ts ≤ ec.fp - soC')
    (hs : Sent ts adr (Used sp ec.fp (argBytes ts) soC soC' (finSo ts (pcs ts 0 0 32).1 so)) s0) :
    Good sp (keepS (Used sp ec.fp (argBytes ts) soC soC' (finSo ts (pcs ts 0 0 32).1 so))) s0 adr ec (allItems ec.fp b ts soC so) := by
  obtain ⟨F, PW, L⟩ := mkItems_facts (sp := sp) (fpc := ec.fp) ts 0 0 0 32 soC so hf cnt0 hso
  have hfg := fin_ge ts 0 0 32 hf cnt0
  have hab := argBytes_ge ts
  have notS : ∀ {a : Int}, Used sp ec.fp (argBytes ts) soC soC' (finSo ts (pcs ts 0 0 32).1 so) a →
      ¬ keepS (Used sp ec.fp (argBytes ts) soC soC' (finSo ts (pcs ts 0 0 32).1 so)) (.mem a) := by
    rintro a h (⟨i, k, e⟩ | ⟨b, e, h'⟩)
    · cases e
    · cases e; exact h' h
  have regS : ∀ {used : Int → Prop} {c : CL}, (∀ v k, c ≠ .var v k) → (∀ a, c ≠ .mem a) → ¬ keepS used c := by
    rintro used c h1 h2 (⟨i, k, e⟩ | ⟨b, e, _⟩)
    · exact h1 _ _ e
    · exact h2 _ e
  -- the item for the result
  have xr : ∀ n, (xItem n).isRef = false := fun _ => rfl
  have xl : ∀ n, (xItem n).isLocal = false := fun _ => rfl
  have units_zone : ∀ u ∈ (allItems ec.fp b ts soC so).flatMap Item.units, ∀ c, u.cells sp c →
      (∃ k, c = .gp 8 k) ∨ Zone sp 0 8 0 8 32 (argBytes ts + 32) c := by
    intro u hu c hc
    obtain ⟨it, hit, hu'⟩ := List.mem_flatMap.1 hu
    rcases allItems_cases hit with ⟨_, rfl⟩ | hit
    · exact .inl (xCells hu' hc)
    · exact .inr (((F it hit).slot u hu' c hc).mono (Nat.le_refl _) hfg.2.1 (Nat.le_refl _) hfg.2.2.2.1 (Nat.le_refl _) hab)
  have pairs : ∀ {R : Item → Item → Prop}, (∀ a b, R a b) ∨ ((mkItems ec.fp 0 ts (pcs ts 0 0 32).1 soC so).Pairwise R ∧
      (∀ x ∈ mkItems ec.fp 0 ts (pcs ts 0 0 32).1 soC so, R (xItem ts.length) x)) → (allItems ec.fp b ts soC so).Pairwise R := by
    intro R h
    rcases h with h | ⟨h1, h2⟩
    · exact List.pairwise_of_forall fun {a b} => h a b
    · unfold allItems
      cases b with
      | false => simpa using h1
      | true => simpa using ⟨h2, h1⟩
  refine ⟨pairs (.inr ⟨PW.imp fun h => Nat.ne_of_lt h.1, fun x hx => by have := (F x hx).lt; show ts.length ≠ x.i; omega⟩),
    ?_, ?_, fun it _ k => .inl ⟨_, _, rfl⟩, ?_, ?_, ?_, ?_, ?_, ?_, ?_, ?_, ?_, ?_, ?_, ?_⟩
  · intro it hit
    rcases allItems_cases hit with ⟨_, rfl⟩ | hit
    · refine ⟨?_, trivial⟩
      unfold PartsOk xItem
      simp [Ty.ind, sizeOf, Scal.size]
    · exact (F it hit).shape
  · intro it hit k hk
    rcases allItems_cases hit with ⟨_, rfl⟩ | hit
    · exact hk
    · rw [(F it hit).P] at hk; exact hk
  · intro it hit ht
    rcases allItems_cases hit with ⟨_, rfl⟩ | hit
    · cases ht
    · have := hs.object it.i it.t ((L it.i it.t).2 ⟨it, hit, by omega, rfl⟩) ht
      exact ⟨this.1, fun k hk => .inr ⟨_, rfl, this.2 k hk⟩⟩
  · rintro c (⟨i, k, rfl⟩ | ⟨a, rfl, _⟩)
    · exact .inl ⟨i, k, rfl⟩
    · exact .inr ⟨a, rfl⟩
  · rw [List.flatMap_def, List.pairwise_flatten]
    refine ⟨?_, ?_⟩
    · intro l hl
      obtain ⟨it, hit, rfl⟩ := List.mem_map.1 hl
      rcases allItems_cases hit with ⟨_, rfl⟩ | hit
      · exact List.pairwise_singleton ..
      · exact (F it hit).pw
    · rw [List.pairwise_map]
      refine pairs (.inr ⟨PW.imp fun h u hu v hv => h.2.1 u hu v hv, ?_⟩)
      intro x hx u hu v hv c hc hc'
      exact zone8 hfg.2.1 ((F x hx).slot v hv c hc') (xCells hu hc)
  · intro u hu c hc
    rcases units_zone u hu c hc with ⟨k, rfl⟩ | ⟨r, k, rfl, _, _⟩ | ⟨r, k, rfl, _, _⟩ | ⟨a, rfl, h1, h2⟩
    · exact regS (by simp) (by simp)
    · exact regS (by simp) (by simp)
    · exact regS (by simp) (by simp)
    · refine notS (.inl ⟨by omega, by omega⟩)
  · intro it hit hr s
    rcases allItems_cases hit with ⟨_, rfl⟩ | hit
    · cases hr
    · obtain ⟨o, e1, e2, _⟩ := (F it hit).ref hr
      rw [e1, e2]; simp [Opd.loc, Int.sub_eq_add_neg]
  · refine pairs (.inr ⟨PW.imp ?_, fun x hx h => by cases h⟩)
    rintro a b h ha hb c ⟨k, hk, rfl⟩ ⟨k', hk', e⟩
    have := h.2.2.1 ha hb
    simp only [CL.mem.injEq] at e; omega
  · rintro it hit hr c ⟨k, hk, rfl⟩
    rcases allItems_cases hit with ⟨_, rfl⟩ | hit
    · cases hr
    · obtain ⟨o, e1, e2, h1, h2⟩ := (F it hit).ref hr
      exact notS (.inr ⟨by omega, by omega⟩)
  · rintro it hit hr u hu c ⟨k, hk, rfl⟩ hc
    rcases allItems_cases hit with ⟨_, rfl⟩ | hit
    · cases hr
    · obtain ⟨o, e1, e2, h1, h2⟩ := (F it hit).ref hr
      rcases units_zone u hu _ hc with ⟨k, e⟩ | ⟨r, k, e, _, _⟩ | ⟨r, k, e, _, _⟩ | ⟨a, e, h1, h2⟩
      · cases e
      · cases e
      · cases e
      · simp only [CL.mem.injEq] at e; omega
  · refine pairs (.inr ⟨PW.imp ?_, fun x hx h => by cases h⟩)
    rintro a b h ha hb c ⟨k, hk, rfl⟩ ⟨k', hk', e⟩
    have := h.2.2.2 ha hb
    simp only [CL.mem.injEq] at e; omega
  · rintro it hit hl c ⟨k, hk, rfl⟩
    rcases allItems_cases hit with ⟨_, rfl⟩ | hit
    · cases hl
    · have := (F it hit).loc hl
      exact notS (.inl ⟨by omega, by omega⟩)
  · rintro it hit hl u hu c ⟨k, hk, rfl⟩ hc
    rcases allItems_cases hit with ⟨_, rfl⟩ | hit
    · cases hl
    · have := (F it hit).loc hl
      rcases units_zone u hu _ hc with ⟨k, e⟩ | ⟨r, k, e, _, _⟩ | ⟨r, k, e, _, _⟩ | ⟨a, e, h1, h2⟩
      · cases e
      · cases e
      · cases e
      · simp only [CL.mem.injEq] at e; omega
  · rintro a ha hl b hb hr c ⟨k, hk, rfl⟩ ⟨k', hk', e⟩
    rcases allItems_cases ha with ⟨_, rfl⟩ | ha
    · cases hl
    rcases allItems_cases hb with ⟨_, rfl⟩ | hb
    · cases hr
    have := (F a ha).loc hl
    obtain ⟨o, e1, e2, h1, h2⟩ := (F b hb).ref hr
    simp only [CL.mem.injEq] at e; omega

end Nature.Abi.Arm
