import Verif.Abi.Win
import Verif.Abi.Finish
import Verif.Abi.Ret
import Verif.Abi.SysvLemmas
/-
Passing arguments with the Microsoft convention: the two sides meet.
-/
namespace Nature.Abi.Win
open Nature.TypeLayout
open Sysv (Cls)

theorem alignUp_sixteen (n : Nat) : alignUp n 16 = (n + 15) - (n + 15) % 16 := by have := alignUp_pow n 4; simpa using this

def regI (i : Nat) : Nat := [1, 2, 8, 9].getD i 0

theorem intReg_lt {i : Nat} (h : i < 4) : intReg i = some (regI i) := by
  have : i = 0 ∨ i = 1 ∨ i = 2 ∨ i = 3 := by omega
  rcases this with rfl | rfl | rfl | rfl <;> rfl
theorem sseReg_lt {i : Nat} (h : i < 4) : sseReg i = some i := by
  have : i = 0 ∨ i = 1 ∨ i = 2 ∨ i = 3 := by omega
  rcases this with rfl | rfl | rfl | rfl <;> rfl
theorem regI_inj {i j : Nat} (hi : i < 4) (hj : j < 4) (h : regI i = regI j) : i = j := by
  have a : i = 0 ∨ i = 1 ∨ i = 2 ∨ i = 3 := by omega
  have b : j = 0 ∨ j = 1 ∨ j = 2 ∨ j = 3 := by omega
  rcases a with rfl | rfl | rfl | rfl <;> rcases b with rfl | rfl | rfl | rfl <;> first | rfl | (simp [regI] at h)

/-- The place of argument `i`. -/
def place (i : Nat) (c : Cls) : PL := if i < 4 then (if c = .sse then .fp i else .gp (regI i)) else .stk (32 + (i - 4) * 8)

def extra (i : Nat) (c : Cls) (t : Ty) : Extra :=
  if i < 4 then (if c = .sse then .mirror (regI i) (i * 8) else .plain) else if t.ind then .temp else .plain

/-- The arguments, with the places they take. -/
def mkItems (sp : Int) : (i : Nat) → List Ty → (cur so : Nat) → List Item
  | _, [], _, _ => []
  | i, t :: ts, cur, so =>
    match cls t with
    | none =>
      { i := i, t := t, pl := .ref (place i .integer), cpx := .spo (alignUp cur 16), cp := sp + (alignUp cur 16 : Nat) } ::
        mkItems sp (i + 1) ts (alignUp cur 16 + alignUp (max (sizeOf t) 1) 16) so
    | some c =>
      { i := i, t := t, pl := .parts [(place i c, 0, sizeOf t)], lo := allocOff so t, lsz := sizeOf t, ex := extra i c t } ::
        mkItems sp (i + 1) ts cur (if t.ind then allocOff so t else so)

/-- `c->stack_offset` after the parameters. -/
def finalSo : List Ty → (so : Nat) → Nat
  | [], so => so
  | t :: ts, so => finalSo ts (if (cls t).isSome ∧ t.ind = true then allocOff so t else so)

theorem finalSo_ge : ∀ (ts : List Ty) (so : Nat), so ≤ finalSo ts so
  | [], so => Nat.le_refl _
  | t :: ts, so => by
    have := finalSo_ge ts (if (cls t).isSome ∧ t.ind = true then allocOff so t else so)
    rw [finalSo]
    refine Nat.le_trans ?_ this
    split
    · unfold allocOff; rw [alignUp_eight]; omega
    · exact Nat.le_refl _

theorem allocOff_room {so : Nat} {t : Ty} : so + sizeOf t ≤ allocOff so t := by
  unfold allocOff
  rw [alignUp_eight]
  split <;> omega

theorem copyOffsets_ge : ∀ (ts : List Ty) (cur : Nat), cur ≤ (copyOffsets ts cur).2
  | [], cur => Nat.le_refl _
  | t :: ts, cur => by
    unfold copyOffsets
    split
    · exact copyOffsets_ge ts cur
    · have := copyOffsets_ge ts (alignUp cur 16 + alignUp (max (sizeOf t) 1) 16)
      dsimp only
      rw [alignUp_sixteen] at this ⊢
      omega

/-! ### The operations -/

theorem cls_none {t : Ty} (h : cls t = none) : t.ind = true := by
  cases t with
  | scal s => cases h
  | _ => rfl

theorem cls_scal {s : Scal} : cls (.scal s) = some (if s.isF then .sse else .integer) := rfl

theorem cls_agg {es : Tys} {c : Cls} (h : cls (.agg es) = some c) : c = .integer := by
  simp only [cls] at h; split at h <;> cases h; rfl

theorem copies_eq {sp : Int} : ∀ (ts : List Ty) (i cur so : Nat),
    copies i ts (copyOffsets ts cur).1 = (mkItems sp i ts cur so).flatMap Item.copyOps
  | [], i, cur, so => by simp [copies, mkItems]
  | t :: ts, i, cur, so => by
    unfold copyOffsets mkItems
    cases h : cls t with
    | none =>
      simp only [copies, h, List.flatMap_cons]
      rw [copies_eq (sp := sp) ts (i + 1) _ so]
      simp [Item.copyOps]
    | some c =>
      simp only [copies, h, List.flatMap_cons]
      rw [copies_eq (sp := sp) ts (i + 1) cur (if t.ind then allocOff so t else so)]
      simp [Item.copyOps]

theorem stackArgs_eq {sp : Int} : ∀ (ts : List Ty) (i cur so : Nat),
    stackArgs i ts = (((mkItems sp i ts cur so).flatMap Item.units).filter U.isStk).flatMap U.ops
  | [], i, cur, so => by simp [stackArgs, mkItems]
  | t :: ts, i, cur, so => by
    unfold mkItems
    cases h : cls t with
    | none =>
      rw [List.flatMap_cons, List.filter_append, List.flatMap_append, stackArgs]
      rw [stackArgs_eq (sp := sp) ts (i + 1) (alignUp cur 16 + alignUp (max (sizeOf t) 1) 16) so]
      by_cases hi : i < 4
      · simp [hi, Item.units, U.isStk, place, PL.isStk]
      · simp [hi, h, List.filter_cons, Item.units, U.isStk, place, PL.isStk, U.ops, PL.opd]
    | some c =>
      rw [List.flatMap_cons, List.filter_append, List.flatMap_append, stackArgs]
      rw [stackArgs_eq (sp := sp) ts (i + 1) cur (if t.ind then allocOff so t else so)]
      by_cases hi : i < 4
      · by_cases hc : c = .sse <;> simp [hi, hc, Item.units, U.isStk, place, PL.isStk]
      · cases t with
        | scal s => simp [hi, h, List.filter_cons, Item.units, U.isStk, place, PL.isStk, U.ops, PL.opd, extra, Ty.ind, sizeOf]
        | agg es => simp [hi, h, List.filter_cons, Item.units, U.isStk, place, PL.isStk, U.ops, PL.opd, extra, Ty.ind]
        | arr n e => cases h

theorem no_regs {sp : Int} : ∀ (ts : List Ty) (i cur so : Nat), 4 ≤ i →
    ((mkItems sp i ts cur so).flatMap Item.units).filter (fun u => !u.isStk) = []
  | [], i, cur, so, _ => by simp [mkItems]
  | t :: ts, i, cur, so, hi => by
    have hi' : ¬ i < 4 := by omega
    unfold mkItems
    cases h : cls t with
    | none =>
      simp only [List.flatMap_cons, List.filter_append, no_regs ts (i + 1) _ _ (by omega)]
      simp [Item.units, U.isStk, place, PL.isStk, hi']
    | some c =>
      simp only [List.flatMap_cons, List.filter_append, no_regs ts (i + 1) _ _ (by omega)]
      simp [Item.units, U.isStk, place, PL.isStk, hi']

theorem regArgs_eq {sp : Int} : ∀ (ts : List Ty) (i cur so : Nat),
    regArgs i ts = some ((((mkItems sp i ts cur so).flatMap Item.units).filter fun u => !u.isStk).flatMap U.ops)
  | [], i, cur, so => by simp [regArgs, mkItems]
  | t :: ts, i, cur, so => by
    by_cases hi : i < 4
    · unfold mkItems
      cases h : cls t with
      | none =>
        rw [List.flatMap_cons, List.filter_append, List.flatMap_append, regArgs]
        rw [regArgs_eq (sp := sp) ts (i + 1) (alignUp cur 16 + alignUp (max (sizeOf t) 1) 16) so]
        simp [hi, h, intReg_lt hi, Item.units, U.isStk, place, PL.isStk, U.ops, PL.opd]
      | some c =>
        rw [List.flatMap_cons, List.filter_append, List.flatMap_append, regArgs]
        rw [regArgs_eq (sp := sp) ts (i + 1) cur (if t.ind then allocOff so t else so)]
        cases t with
        | scal s =>
          by_cases hc : c = .sse
          · simp [hi, h, hc, intReg_lt hi, sseReg_lt hi, Item.units, U.isStk, place, PL.isStk, U.ops, PL.opd, extra, sizeOf]
          · simp [hi, h, hc, intReg_lt hi, Item.units, U.isStk, place, PL.isStk, U.ops, PL.opd, extra, Ty.ind, sizeOf]
        | agg es =>
          have hc := cls_agg h
          subst hc
          simp [hi, h, intReg_lt hi, Item.units, U.isStk, place, PL.isStk, U.ops, PL.opd, extra, Ty.ind]
        | arr n e => cases h
    · rw [no_regs _ _ _ _ (by omega)]
      simp [regArgs, hi]

theorem params_eq {sp : Int} : ∀ (ts : List Ty) (i cur so : Nat),
    params i ts (16 + (32 + (i - 4) * 8)) so = some ((mkItems sp i ts cur so).flatMap Item.inOps, finalSo ts so)
  | [], i, cur, so => by simp [params, mkItems, finalSo]
  | t :: ts, i, cur, so => by
    have e1 : i < 4 → 16 + (32 + (i + 1 - 4) * 8) = 16 + (32 + (i - 4) * 8) := by omega
    have e2 : ¬ i < 4 → 16 + (32 + (i + 1 - 4) * 8) = 16 + (32 + (i - 4) * 8) + 8 := by omega
    unfold mkItems
    cases h : cls t with
    | none =>
      have ih := params_eq (sp := sp) ts (i + 1) (alignUp cur 16 + alignUp (max (sizeOf t) 1) 16) so
      rw [params, finalSo]
      simp only [h, Option.isSome_none, Bool.false_eq_true, false_and, if_false]
      by_cases hi : i < 4
      · rw [e1 hi] at ih
        simp [hi, intReg_lt hi, ih, Item.inOps, place, PL.opdIn]
      · rw [e2 hi] at ih
        simp [hi, ih, Item.inOps, place, PL.opdIn]
    | some c =>
      have ih := params_eq (sp := sp) ts (i + 1) cur (if t.ind then allocOff so t else so)
      rw [params, finalSo]
      simp only [h, Option.isSome_some, true_and]
      by_cases hi : i < 4
      · rw [e1 hi] at ih
        cases t with
        | scal s =>
          simp only [Ty.ind, Bool.false_eq_true, if_false] at ih
          by_cases hc : c = .sse
          · simp [hi, hc, sseReg_lt hi, ih, Item.inOps, place, PL.opdIn, Ty.ind, sizeOf]
          · simp [hi, hc, intReg_lt hi, ih, Item.inOps, place, PL.opdIn, Ty.ind, sizeOf]
        | agg es =>
          have hc := cls_agg h
          subst hc
          simp only [Ty.ind, if_true] at ih
          simp [hi, intReg_lt hi, ih, Item.inOps, place, PL.opdIn, Ty.ind, allocOp]
        | arr n e => cases h
      · rw [e2 hi] at ih
        cases t with
        | scal s =>
          simp only [Ty.ind, Bool.false_eq_true, if_false] at ih
          simp [hi, ih, Item.inOps, place, PL.opdIn, Ty.ind, sizeOf]
        | agg es =>
          simp only [Ty.ind, if_true] at ih
          simp [hi, ih, Item.inOps, place, PL.opdIn, Ty.ind, allocOp]
        | arr n e => cases h

/-! ### The places are apart -/

/-- What argument `i` may take. -/
def Slot (sp : Int) (i : Nat) (c : CL) : Prop :=
  (i < 4 ∧ ∃ k, c = .gp (regI i) k) ∨ (i < 4 ∧ ∃ k, c = .fp i k) ∨ ∃ a, c = .mem a ∧ sp + 8 * i ≤ a ∧ a < sp + 8 * i + 8

theorem slot_apart {sp : Int} {i j : Nat} {c : CL} (h : i ≠ j) (hi : Slot sp i c) (hj : Slot sp j c) : False := by
  rcases hi with ⟨hi, k, rfl⟩ | ⟨hi, k, rfl⟩ | ⟨a, rfl, h1, h2⟩
  · rcases hj with ⟨hj, k', e⟩ | ⟨hj, k', e⟩ | ⟨a, e, _⟩
    · simp only [CL.gp.injEq] at e; exact h (regI_inj hi hj e.1)
    · cases e
    · cases e
  · rcases hj with ⟨hj, k', e⟩ | ⟨hj, k', e⟩ | ⟨a, e, _⟩
    · cases e
    · simp only [CL.fp.injEq] at e; exact h e.1
    · cases e
  · rcases hj with ⟨hj, k', e⟩ | ⟨hj, k', e⟩ | ⟨a', e, _⟩
    · cases e
    · cases e
    · cases e; omega

theorem place_slot {sp : Int} {i n : Nat} {c : Cls} {x : CL} (hn : n ≤ 8) (h : ((place i c).loc sp).cover n x) : Slot sp i x := by
  obtain ⟨k, hk, rfl⟩ := h
  unfold place
  split
  · rename_i hi
    split
    · exact .inr (.inl ⟨hi, k, rfl⟩)
    · exact .inl ⟨hi, k, rfl⟩
  · refine .inr (.inr ⟨_, rfl, ?_, ?_⟩) <;> omega

theorem size_le {t : Ty} {c : Cls} (h : cls t = some c) : sizeOf t ≤ 8 := by
  cases t with
  | scal s => rw [sizeOf]; cases s <;> simp [Scal.size]
  | agg es => simp only [cls] at h; split at h; omega; cases h
  | arr n e => cases h

/-- What is known of each argument. -/
structure Facts (sp : Int) (it : Item) (i n cur cur' so so' : Nat) : Prop where
  ge : i ≤ it.i
  lt : it.i < n
  shape : it.Shape
  P : it.P = allBytes it.t
  slot : ∃ u, it.units = [u] ∧ ∀ c, u.cells sp c → Slot sp it.i c
  ref : it.isRef = true → ∃ o : Nat, it.cpx = .spo o ∧ it.cp = sp + o ∧ cur ≤ o ∧ o + sizeOf it.t ≤ cur'
  loc : it.isLocal = true → so + it.lsz ≤ it.lo ∧ it.lo ≤ so'

theorem Facts.mono {sp : Int} {it : Item} {i n cur cur' so so' j cur2 so2 : Nat} (h : Facts sp it j n cur2 cur' so2 so') (h1 : i ≤ j)
    (h2 : cur ≤ cur2) (h3 : so ≤ so2) : Facts sp it i n cur cur' so so' :=
  ⟨Nat.le_trans h1 h.ge, h.lt, h.shape, h.P, h.slot, fun hr => by
    obtain ⟨o, a, b, c, d⟩ := h.ref hr; exact ⟨o, a, b, by omega, d⟩, fun hl => by have := h.loc hl; omega⟩

theorem mkItems_facts {sp : Int} : ∀ (ts : List Ty) (i cur so : Nat), ∀ it ∈ mkItems sp i ts cur so,
    Facts sp it i (i + ts.length) cur (copyOffsets ts cur).2 so (finalSo ts so)
  | [], _, _, _, _, h => by simp [mkItems] at h
  | t :: ts, i, cur, so, it, hit => by
    unfold mkItems at hit
    have hlen : i + (t :: ts).length = i + 1 + ts.length := by simp; omega
    rw [hlen]
    cases h : cls t with
    | none =>
      rw [h] at hit
      dsimp only at hit
      have e1 : (copyOffsets (t :: ts) cur).2 = (copyOffsets ts (alignUp cur 16 + alignUp (max (sizeOf t) 1) 16)).2 := by
        rw [copyOffsets, h]
      have e2 : finalSo (t :: ts) so = finalSo ts so := by simp [finalSo, h]
      rw [e1, e2]
      have hc : cur ≤ alignUp cur 16 := by rw [alignUp_sixteen]; omega
      rcases List.mem_cons.1 hit with rfl | hit'
      · refine ⟨Nat.le_refl _, by dsimp only; omega, cls_none h, rfl, ⟨_, rfl, fun c hc => place_slot (Nat.le_refl _) hc⟩, fun _ => ?_,
          fun h => by simp [Item.isLocal] at h⟩
        refine ⟨_, rfl, rfl, hc, ?_⟩
        have := copyOffsets_ge ts (alignUp cur 16 + alignUp (max (sizeOf t) 1) 16)
        rw [alignUp_sixteen (max _ _)] at this
        rw [alignUp_sixteen (max _ _)]
        dsimp only
        omega
      · exact (mkItems_facts ts (i + 1) _ so it hit').mono (by omega) (by omega) (Nat.le_refl _)
    | some c =>
      rw [h] at hit
      dsimp only at hit
      have e1 : (copyOffsets (t :: ts) cur).2 = (copyOffsets ts cur).2 := by rw [copyOffsets, h]
      have e2 : finalSo (t :: ts) so = finalSo ts (if t.ind then allocOff so t else so) := by simp [finalSo, h]
      rw [e1, e2]
      have hso : so ≤ (if t.ind then allocOff so t else so) := by
        split
        · have := allocOff_room (so := so) (t := t); omega
        · exact Nat.le_refl _
      have hs := size_le h
      rcases List.mem_cons.1 hit with rfl | hit'
      · refine ⟨Nat.le_refl _, by dsimp only; omega, ⟨?_, ?_⟩, rfl, ⟨_, rfl, ?_⟩, fun h => by simp [Item.isRef] at h, ?_⟩
        · unfold PartsOk
          split
          · exact ⟨fun k (hk : k < _) => ⟨_, List.mem_singleton.2 rfl, by simp, by simp; omega⟩, by simp, by simp⟩
          · exact ⟨_, rfl⟩
        · dsimp only
          unfold extra
          by_cases hi : i < 4
          · rw [if_pos hi]
            by_cases hc : c = .sse
            · rw [if_pos hc]
              refine ⟨?_, i, sizeOf t, by simp [place, hi, hc]⟩
              cases t with
              | scal s => rfl
              | agg es => rw [cls_agg h] at hc; cases hc
              | arr n e => cases h
            · rw [if_neg hc]; trivial
          · rw [if_neg hi]
            cases ht : t.ind
            · simp
            · simp
        · rintro x (hx | ⟨g, home, he, hx | hx⟩)
          · exact place_slot (by omega) hx
          · simp only [extra] at he
            split at he
            · rename_i hi
              split at he
              · simp only [Extra.mirror.injEq] at he
                obtain ⟨rfl, rfl⟩ := he
                obtain ⟨k, hk, rfl⟩ := hx
                exact .inl ⟨hi, k, rfl⟩
              · cases he
            · split at he <;> cases he
          · simp only [extra] at he
            split at he
            · rename_i hi
              split at he
              · simp only [Extra.mirror.injEq] at he
                obtain ⟨rfl, rfl⟩ := he
                obtain ⟨k, hk, rfl⟩ := hx
                dsimp only at hk
                exact .inr (.inr ⟨_, rfl, by dsimp only; omega, by dsimp only; omega⟩)
              · cases he
            · split at he <;> cases he
        · intro hl
          have hl' : t.ind = true := hl
          dsimp only
          simp only [hl', if_true]
          exact ⟨allocOff_room, finalSo_ge ..⟩
      · exact (mkItems_facts ts (i + 1) cur _ it hit').mono (by omega) (Nat.le_refl _) hso

theorem mkItems_pw {sp : Int} : ∀ (ts : List Ty) (i cur so : Nat), (mkItems sp i ts cur so).Pairwise fun a b =>
    a.i < b.i ∧ (a.isRef = true → b.isRef = true → a.cp + (sizeOf a.t : Int) ≤ b.cp) ∧ (a.isLocal = true → b.isLocal = true → a.lo + b.lsz ≤ b.lo)
  | [], _, _, _ => by simp [mkItems]
  | t :: ts, i, cur, so => by
    unfold mkItems
    cases h : cls t with
    | none =>
      dsimp only
      refine List.pairwise_cons.2 ⟨?_, mkItems_pw ts _ _ _⟩
      intro b hb
      have f := mkItems_facts ts _ _ _ b hb
      refine ⟨by have := f.ge; dsimp only; omega, fun _ hr => ?_, fun h => by simp [Item.isLocal] at h⟩
      obtain ⟨o, _, e, g, _⟩ := f.ref hr
      rw [e]
      rw [alignUp_sixteen (max _ _)] at g
      dsimp only
      omega
    | some c =>
      dsimp only
      refine List.pairwise_cons.2 ⟨?_, mkItems_pw ts _ _ _⟩
      intro b hb
      have f := mkItems_facts ts _ _ _ b hb
      refine ⟨by have := f.ge; dsimp only; omega, fun h => by simp [Item.isRef] at h, fun hl hl' => ?_⟩
      have hl2 : t.ind = true := hl
      have := (f.loc hl').1
      simp only [hl2, if_true] at this
      exact this

theorem mkItems_lists {sp : Int} : ∀ (ts : List Ty) (i cur so j : Nat) (t : Ty),
    ts[j]? = some t ↔ ∃ it ∈ mkItems sp i ts cur so, it.i = i + j ∧ it.t = t
  | [], i, cur, so, j, t => by simp [mkItems]
  | t0 :: ts, i, cur, so, j, t => by
    obtain ⟨cur', so', x, hx, e1, e2⟩ : ∃ cur' so' x, mkItems sp i (t0 :: ts) cur so = x :: mkItems sp (i + 1) ts cur' so' ∧ x.i = i ∧ x.t = t0 := by
      cases h : cls t0 with
      | none => exact ⟨_, _, _, by rw [mkItems, h], rfl, rfl⟩
      | some c => exact ⟨_, _, _, by rw [mkItems, h], rfl, rfl⟩
    rw [hx]
    cases j with
    | zero =>
      simp only [List.getElem?_cons_zero, Option.some.injEq, Nat.add_zero]
      constructor
      · rintro rfl; exact ⟨x, List.mem_cons_self .., e1, e2⟩
      · rintro ⟨it, hit, h1, h2⟩
        rcases List.mem_cons.1 hit with rfl | hit'
        · rw [← h2, e2]
        · have := (mkItems_facts ts _ _ _ it hit').ge; omega
    | succ j =>
      rw [List.getElem?_cons_succ, mkItems_lists (sp := sp) ts (i + 1) cur' so' j t]
      constructor
      · rintro ⟨it, hit, h1, h2⟩; exact ⟨it, List.mem_cons_of_mem _ hit, by omega, h2⟩
      · rintro ⟨it, hit, h1, h2⟩
        rcases List.mem_cons.1 hit with rfl | hit'
        · omega
        · exact ⟨it, hit', by omega, h2⟩

theorem units_slot {sp : Int} {ts : List Ty} {cur so : Nat} {u : U} (hu : u ∈ (mkItems sp 0 ts cur so).flatMap Item.units) :
    ∃ i, i < ts.length ∧ ∀ c, u.cells sp c → Slot sp i c := by
  obtain ⟨it, hit, hu'⟩ := List.mem_flatMap.1 hu
  have f := mkItems_facts ts 0 cur so it hit
  obtain ⟨v, e, hv⟩ := f.slot
  rw [e, List.mem_singleton] at hu'
  subst hu'
  exact ⟨it.i, by have := f.lt; omega, hv⟩

theorem copyStart_le (ts : List Ty) : 32 ≤ copyStart ts ∧ ∀ i, i < ts.length → 8 * i + 8 ≤ copyStart ts := by
  unfold copyStart
  split
  · exact ⟨by omega, fun i hi => by omega⟩
  · exact ⟨by omega, fun i hi => by omega⟩

theorem argBytes_ge (ts : List Ty) : (copyOffsets ts (copyStart ts)).2 ≤ argBytes ts := by
  unfold argBytes
  dsimp only
  rw [alignUp_sixteen]
  split <;> omega

theorem good {sp : Int} {ts : List Ty} {so : Nat} {s0 : State} {adr : Nat → Int} {ec : Env} (hsp : ec.sp = sp)
    (hs : Sent ts adr (Range (sp - 16 - finalSo ts so) (sp + argBytes ts)) s0) :
    Good sp (keepS (Range (sp - 16 - finalSo ts so) (sp + argBytes ts))) s0 adr ec (mkItems sp 0 ts (copyStart ts) so) := by
  have F := mkItems_facts (sp := sp) ts 0 (copyStart ts) so
  have PW := mkItems_pw (sp := sp) ts 0 (copyStart ts) so
  have hcs := copyStart_le ts
  have hab := argBytes_ge ts
  have hcg := copyOffsets_ge ts (copyStart ts)
  have notS : ∀ {a : Int}, sp - 16 - finalSo ts so ≤ a → a < sp + argBytes ts → ¬ keepS (Range (sp - 16 - finalSo ts so) (sp + argBytes ts)) (.mem a) := by
    rintro a h1 h2 (⟨i, k, e⟩ | ⟨b, e, h⟩)
    · cases e
    · cases e; exact h ⟨h1, h2⟩
  refine ⟨PW.imp fun h => Nat.ne_of_lt h.1, fun it hit => (F it hit).shape, fun it hit k hk => by rw [(F it hit).P] at hk; exact hk,
    fun it _ k => .inl ⟨_, _, rfl⟩, ?_, ?_, ?_, ?_, ?_, ?_, ?_, ?_, ?_, ?_, ?_, ?_⟩
  · intro it hit ht
    have := hs.object it.i it.t ((mkItems_lists (sp := sp) ts 0 (copyStart ts) so it.i it.t).2 ⟨it, hit, by omega, rfl⟩) ht
    exact ⟨this.1, fun k hk => .inr ⟨_, rfl, this.2 k hk⟩⟩
  · rintro c (⟨i, k, rfl⟩ | ⟨a, rfl, _⟩)
    · exact .inl ⟨i, k, rfl⟩
    · exact .inr ⟨a, rfl⟩
  · rw [List.flatMap_def, List.pairwise_flatten]
    refine ⟨?_, ?_⟩
    · intro l hl
      obtain ⟨it, hit, rfl⟩ := List.mem_map.1 hl
      obtain ⟨u, e, _⟩ := (F it hit).slot
      rw [e]; exact List.pairwise_singleton ..
    · rw [List.pairwise_map]
      refine PW.imp_of_mem ?_
      intro a b ha hb h u hu v hv c hc hc'
      obtain ⟨u', e, h1⟩ := (F a ha).slot
      obtain ⟨v', e', h2⟩ := (F b hb).slot
      rw [e, List.mem_singleton] at hu
      rw [e', List.mem_singleton] at hv
      subst hu hv
      exact slot_apart (Nat.ne_of_lt h.1) (h1 c hc) (h2 c hc')
  · intro u hu c hc
    obtain ⟨i, hi, h⟩ := units_slot hu
    have := hcs.2 i hi
    rcases h c hc with ⟨_, k, rfl⟩ | ⟨_, k, rfl⟩ | ⟨a, rfl, h1, h2⟩
    · rintro (⟨_, _, e⟩ | ⟨_, e, _⟩) <;> cases e
    · rintro (⟨_, _, e⟩ | ⟨_, e, _⟩) <;> cases e
    · exact notS (by omega) (by omega)
  · intro it hit hr s
    obtain ⟨o, e1, e2, _⟩ := (F it hit).ref hr
    rw [e1, e2]; simp [Opd.loc, hsp]
  · refine PW.imp ?_
    rintro a b h ha hb c ⟨k, hk, rfl⟩ ⟨k', hk', e⟩
    have := h.2.1 ha hb
    simp only [CL.mem.injEq] at e; omega
  · rintro it hit hr c ⟨k, hk, rfl⟩
    obtain ⟨o, e1, e2, h1, h2⟩ := (F it hit).ref hr
    exact notS (by omega) (by omega)
  · rintro it hit hr u hu c ⟨k, hk, rfl⟩ hc
    obtain ⟨o, e1, e2, h1, h2⟩ := (F it hit).ref hr
    obtain ⟨i, hi, h⟩ := units_slot hu
    have := hcs.2 i hi
    rcases h _ hc with ⟨_, k, e⟩ | ⟨_, k, e⟩ | ⟨a, e, _, _⟩
    · cases e
    · cases e
    · simp only [CL.mem.injEq] at e; omega
  · refine PW.imp ?_
    rintro a b h ha hb c ⟨k, hk, rfl⟩ ⟨k', hk', e⟩
    have := h.2.2 ha hb
    simp only [CL.mem.injEq] at e; omega
  · rintro it hit hl c ⟨k, hk, rfl⟩
    have := (F it hit).loc hl
    exact notS (by omega) (by omega)
  · rintro it hit hl u hu c ⟨k, hk, rfl⟩ hc
    have := (F it hit).loc hl
    obtain ⟨i, hi, h⟩ := units_slot hu
    rcases h _ hc with ⟨_, k, e⟩ | ⟨_, k, e⟩ | ⟨a, e, _, _⟩
    · cases e
    · cases e
    · simp only [CL.mem.injEq] at e; omega
  · rintro a ha hl b hb hr c ⟨k, hk, rfl⟩ ⟨k', hk', e⟩
    have := (F a ha).loc hl
    obtain ⟨o, e1, e2, h1, h2⟩ := (F b hb).ref hr
    simp only [CL.mem.injEq] at e; omega

/-- A call passes its arguments. -/
theorem args_ok {ts : List Ty} {so : Nat} {s0 : State} {adr : Nat → Int} {ec ee : Env} (hfp : ee.fp = ec.sp - 16) :
    ∃ cops pops so', lowerArgs ts = some cops ∧ lowerParams ts so = some (pops, so') ∧
      (Sent ts adr (Range (ee.fp - so') (ec.sp + argBytes ts)) s0 →
        ∃ s1 s2, exec ec cops s0 = some s1 ∧ exec ee pops s1 = some s2 ∧ Received allBytes ts adr (Range (ee.fp - so') (ec.sp + argBytes ts)) s0 s2) := by
  refine ⟨(mkItems ec.sp 0 ts (copyStart ts) so).flatMap Item.copyOps ++ (emitOrder ((mkItems ec.sp 0 ts (copyStart ts) so).flatMap Item.units)).flatMap U.ops,
    _, _, ?_, params_eq (sp := ec.sp) ts 0 (copyStart ts) so, ?_⟩
  · unfold lowerArgs
    rw [regArgs_eq (sp := ec.sp) ts 0 (copyStart ts) so, copies_eq (sp := ec.sp) ts 0 (copyStart ts) so, stackArgs_eq (sp := ec.sp) ts 0 (copyStart ts) so]
    simp only [Option.map_some, emitOrder, List.flatMap_append, List.append_assoc]
  · intro hs
    rw [hfp] at hs ⊢
    have F := mkItems_facts (sp := ec.sp) ts 0 (copyStart ts) so
    refine finish rfl hfp (fun i t => ?_) (good (ec := ec) rfl hs) ?_ (fun it hit => (F it hit).P) (emitOrder_perm _) rfl rfl
    · have := mkItems_lists (sp := ec.sp) ts 0 (copyStart ts) so i t
      simpa using this
    · have hcs := copyStart_le ts
      have hab := argBytes_ge ts
      have hcg := copyOffsets_ge ts (copyStart ts)
      rintro a (⟨it, hit, h, k, hk, e⟩ | ⟨u, hu, h⟩ | ⟨it, hit, h, k, hk, e⟩)
      · obtain ⟨o, e1, e2, h1, h2⟩ := (F it hit).ref h
        simp only [CL.mem.injEq] at e
        unfold Range; omega
      · obtain ⟨i, hi, hh⟩ := units_slot hu
        have := hcs.2 i hi
        rcases hh _ h with ⟨_, k, e⟩ | ⟨_, k, e⟩ | ⟨a, e, _, _⟩
        · cases e
        · cases e
        · simp only [CL.mem.injEq] at e; unfold Range; omega
      · have := (F it hit).loc h
        simp only [CL.mem.injEq] at e; unfold Range; omega

/-- A call gets the result returned. -/
theorem ret_ok {t : Ty} {r b : Int} {e e' : Env} {s3 : State} (h : Returning t (if (cls t).isNone then [.big] else [.res]) r b s3) :
    ∃ rops sops, lowerReturn t = some rops ∧ lowerResult t = some sops ∧
      ∃ s4 s5, exec e rops s3 = some s4 ∧ exec e' sops s4 = some s5 ∧ Returned allBytes t r b s3 s5 := by
  cases hc : cls t with
  | none =>
    have ht := cls_none hc
    refine ⟨memMov 0 (sizeOf t) .big .ret ++ [.mov (.gp 0) (.var .big) 8], _, by simp only [lowerReturn, hc, ht, if_true], by simp only [lowerResult, hc]; rfl, ?_⟩
    rw [hc] at h
    exact big_ok (p := .gp 0) (fun k hk => hk) ht rfl h
  | some c =>
    rw [hc] at h
    have he : (if c = .integer then PL.gp 0 else PL.fp 0).opd = if c = .integer then Opd.gp 0 else Opd.fp 0 := by split <;> rfl
    cases t with
    | arr n e => cases hc
    | scal s =>
      refine ⟨_, _, by simp only [lowerReturn, hc]; rfl, by simp only [lowerResult, hc]; rfl, ?_⟩
      have key := scal_ok (P := allBytes) (s := s) (e := e) (e' := e') (r := r) (b := b) (s3 := s3)
        (p := if c = .integer then .gp 0 else .fp 0) (by split <;> rfl)
      rw [he] at key
      exact key
    | agg es =>
      refine ⟨retOps [(if c = .integer then .gp 0 else .fp 0, 0, sizeOf (.agg es))], resOps [(if c = .integer then .gp 0 else .fp 0, 0, sizeOf (.agg es))],
        ?_, ?_, regs_ok rfl ?_ ?_ ?_ ?_ h⟩
      · simp only [lowerReturn, hc, retOps, List.map_cons, List.map_nil, he]
      · simp only [lowerResult, hc, resOps, List.map_cons, List.map_nil, he]
      · refine ⟨?_, List.pairwise_singleton ..⟩
        intro p hp; rw [List.mem_singleton] at hp; subst hp; dsimp only; split <;> rfl
      · intro p hp; rw [List.mem_singleton] at hp; subst hp
        unfold room; rw [alignUp_eight]; dsimp only; split <;> omega
      · exact List.pairwise_singleton ..
      · intro k (hk : k < _)
        exact ⟨_, List.mem_singleton.2 rfl, by simp, by simpa using hk⟩

end Nature.Abi.Win
