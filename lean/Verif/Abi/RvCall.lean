import Verif.Abi.RvArgs
/-
riscv64: a call.
-/
namespace Nature.Abi.Rv
open Nature.TypeLayout
open Nature.Abi.Arm (Zone Cnt room_ge allocOff_room allocOff_size Used unit_i)

/-- The result goes through memory. -/
def viaMem : Option Ty → Bool
  | some t => memResIn t
  | none => false

/-- The result type is one for which the positions can be computed. -/
def resOk : Option Ty → Bool
  | some (.agg es) => decide (sizeOf (.agg es) < 65536) && (posOf (.agg es) 0 0 32).isSome
  | _ => true

/-- A function type the code handles. -/
def fits (rt : Option Ty) (ts : List Ty) : Bool := resOk rt && fitsFrom ts (nx0 (viaMem rt)) 0 32

theorem posOf_mem {t : Ty} (h : resOk (some t) = true) (hm : memResIn t = true) : posOf t 0 0 32 = some (⟨1, .i64, none⟩, 1, 0, 32) := by
  cases t with
  | scal s => cases hm
  | arr n e => simp [posOf, Ty.ind, Ty.isAgg]
  | agg es =>
    simp only [resOk, Bool.and_eq_true, decide_eq_true_eq] at h
    have hmod : sizeOf (.agg es) % 65536 = sizeOf (.agg es) := Nat.mod_eq_of_lt h.1
    simp [memResIn, Ty.ind, Ty.isAgg] at hm
    simp [posOf, Ty.ind, Ty.isAgg, hmod, hm]

/-- Nothing of a result goes on the stack. -/
theorem posOf_zero {t : Ty} {r : Pos × Nat × Nat × Nat} (h : posOf t 0 0 32 = some r) :
    (r.1.main = 0 ∨ r.1.main = 1 ∨ r.1.main = 16) ∧
    (r.1.main = 1 → t.ind = true ∧ (Ty.isAgg t = false ∨ 16 < sizeOf t % 65536)) ∧
    ∀ a k off, r.1.attach = some (a, k, off) → a < 32 := by
  unfold posOf at h
  dsimp only at h
  split at h
  · rename_i hc
    simp at h; subst h
    exact ⟨by simp, fun _ => hc, by simp⟩
  · cases hp : regPass t 0 with
    | none => rw [hp] at h; cases h
    | some q =>
      obtain ⟨es, k⟩ := q
      simp only [hp, Option.bind_eq_bind, Option.bind_some] at h
      split at h
      · cases h; simp
      · split at h
        · rename_i a
          split at h
          · cases h
          · cases hf : a.fl <;> simp [hf] at h <;> subst h <;> simp
        · rename_i a b
          split at h
          · cases h
          · cases hf : a.fl <;> cases hg : b.fl <;> simp [hf, hg] at h <;> subst h <;> simp <;> omega
        · cases h

theorem resPos_not {t : Ty} (h : resOk (some t) = true) (hm : memResIn t = false) : ∃ p, resPos t = some p ∧ p.main ≠ 1 := by
  have hsome : ∃ r, posOf t 0 0 32 = some r := by
    cases t with
    | arr n e => simp [memResIn, Ty.ind, Ty.isAgg] at hm
    | scal s =>
      have hs : sizeOf (.scal s) % 65536 ≠ 0 := by rw [sizeOf]; have := size_pos s; omega
      cases hf : s.isF <;> simp [posOf, Ty.ind, regPass_scal, hs, hf]
    | agg es =>
      simp only [resOk, Bool.and_eq_true, Option.isSome_iff_exists] at h
      exact h.2
  obtain ⟨r, hr⟩ := hsome
  obtain ⟨h1, h2, h3⟩ := posOf_zero hr
  refine ⟨r.1, ?_, ?_⟩
  · simp only [resPos, hr, Option.bind_eq_bind, Option.bind_some]
    rw [if_pos h1]
  · intro h1
    obtain ⟨g1, g2⟩ := h2 h1
    cases t with
    | scal s => cases g1
    | arr n e => simp [memResIn, Ty.ind, Ty.isAgg] at hm
    | agg es =>
      simp only [resOk, Bool.and_eq_true, decide_eq_true_eq] at h
      have hmod : sizeOf (.agg es) % 65536 = sizeOf (.agg es) := Nat.mod_eq_of_lt h.1
      rw [hmod] at g2
      simp [Ty.isAgg] at g2
      simp [memResIn, Ty.ind, Ty.isAgg] at hm
      omega

def xUnit (n : Nat) : U := .part n (.scal .i64) (.gp 0) 0 8 .plain

theorem xUnits (n : Nat) : (xItem n).units = [xUnit n] := rfl

theorem filter_split {α : Type} (p : α → Bool) (x : α) (l : List α) : (l.filter p ++ [x] ++ l.filter fun u => !p u).Perm (x :: l) := by
  have h1 : (l.filter p ++ [x] ++ l.filter fun u => !p u).Perm ([x] ++ l.filter p ++ l.filter fun u => !p u) :=
    List.Perm.append_right _ List.perm_append_comm
  refine h1.trans ?_
  rw [List.append_assoc, List.singleton_append]
  exact List.Perm.cons x (filter_perm p l)

/-- Everything the caller does, but for the result. -/
theorem pass {b : Bool} {ts : List Ty} {ps : List Pos} {soC so soC' nx' nv' ns' argb : Nat} {s0 : State} {adr : Nat → Int} {ec ee : Env}
    (hfp : ee.fp = ec.sp - 16) (hr : Run ts (nx0 b) 0 32 ps nx' nv' ns') (hab : ns' ≤ argb + 32) (hso : so % 8 = 0)
    (hC : finC ts ps soC ≤ soC') (hfr : ec.sp + argb ≤ ec.fp - soC')
    (hs : Sent ts adr (Used ec.sp ec.fp argb soC soC' (finSo ts ps so)) s0) :
    ∃ s1 s2, exec ec ((mkItems ec.fp 0 ts ps soC so).flatMap Item.copyOps ++
        (((mkItems ec.fp 0 ts ps soC so).flatMap Item.units).filter U.isStk).flatMap U.ops ++
        (if b then (xUnit ts.length).ops else []) ++
        (((mkItems ec.fp 0 ts ps soC so).flatMap Item.units).filter fun u => !u.isStk).flatMap U.ops) s0 = some s1 ∧
      exec ee ((if b then (xItem ts.length).inOps else []) ++ (mkItems ec.fp 0 ts ps soC so).flatMap Item.inOps) s1 = some s2 ∧
      Received fieldByte (Arm.allTypes b ts) adr (Used ec.sp ec.fp argb soC soC' (finSo ts ps so)) s0 s2 := by
  obtain ⟨F, PW, L⟩ := mkItems_facts (sp := ec.sp) (fpc := ec.fp) hr (cnt0 b) 0 soC so hso
  have hfg := hr.ge (cnt0 b)
  refine finish (items := allItems ec.fp b ts ps soC so)
    (us := ((mkItems ec.fp 0 ts ps soC so).flatMap Item.units).filter U.isStk ++ (if b then [xUnit ts.length] else []) ++
      ((mkItems ec.fp 0 ts ps soC so).flatMap Item.units).filter fun u => !u.isStk)
    rfl hfp (all_lists (sp := ec.sp) hr hso) (good rfl hr hab hso hC hfr hs) ?_ ?_ ?_ ?_ ?_
  · rintro a (⟨it, hit, h, k, hk, e⟩ | ⟨u, hu, h⟩ | ⟨it, hit, h, k, hk, e⟩)
    · rcases allItems_cases hit with ⟨_, rfl⟩ | hit
      · cases h
      · obtain ⟨o, e1, e2, h1, h2⟩ := (F it hit).ref h
        simp only [CL.mem.injEq] at e
        right; unfold Range; omega
    · obtain ⟨it, hit, hu'⟩ := List.mem_flatMap.1 hu
      rcases allItems_cases hit with ⟨_, rfl⟩ | hit
      · obtain ⟨k, e⟩ := xCells hu' h; cases e
      · rcases (F it hit).slot u hu' _ h with ⟨r, k, e, _⟩ | ⟨r, k, e, _⟩ | ⟨x, e, h1, h2⟩
        · cases e
        · cases e
        · simp only [CL.mem.injEq] at e
          left; unfold Range; omega
    · rcases allItems_cases hit with ⟨_, rfl⟩ | hit
      · cases h
      · have := (F it hit).loc h
        simp only [CL.mem.injEq] at e
        left; unfold Range; omega
  · intro it hit
    rcases allItems_cases hit with ⟨_, rfl⟩ | hit
    · rfl
    · exact (F it hit).P
  · cases b with
    | false => simpa [allItems, emitOrder] using emitOrder_perm ((mkItems ec.fp 0 ts ps soC so).flatMap Item.units)
    | true =>
      simp only [allItems, if_true, List.flatMap_append, List.flatMap_singleton, xUnits]
      exact filter_split _ _ _
  · cases b with
    | false => simp [allItems]
    | true => simp [allItems, Item.copyOps, xItem, List.flatMap_append]
  · cases b with
    | false => simp [allItems]
    | true => simp [allItems]

theorem alignUp16 (n : Nat) : n ≤ alignUp n 16 := by
  have := alignUp_pow n 4; simp at this; omega

/-- The positions of the arguments, on both sides. -/
theorem fits_run {rt : Option Ty} {ts : List Ty} (hf : fits rt ts = true) : ∃ ps nx' nv' ns', Run ts (nx0 (viaMem rt)) 0 32 ps nx' nv' ns' ∧
    callPcs rt ts = some (ps, ns') ∧ ns' ≤ argBytes rt ts + 32 ∧ pcs ts (nx0 (viaMem rt)) 0 32 = some (ps, ns') := by
  simp only [fits, Bool.and_eq_true] at hf
  obtain ⟨ps, nx', nv', ns', e, R⟩ := run_of_fits ts _ _ _ hf.2
  have hcall : callPcs rt ts = some (ps, ns') := by
    cases rt with
    | none => exact e
    | some t =>
      unfold callPcs
      cases hm : memResIn t with
      | false => simpa [viaMem, hm, nx0] using e
      | true =>
        have hp := posOf_mem hf.1 hm
        simp only [viaMem, hm, nx0, if_true] at e
        simp [pcs, hp, e, hm]
  refine ⟨ps, nx', nv', ns', R, hcall, ?_, e⟩
  have := alignUp16 (ns' - 32)
  simp only [argBytes, hcall]
  omega

/-- A call passes its arguments. -/
theorem args_ok {rt : Option Ty} {ts : List Ty} {soC so : Nat} {s0 : State} {adr : Nat → Int} {ec ee : Env} (hfp : ee.fp = ec.sp - 16)
    (hf : fits rt ts = true) (hso : so % 8 = 0) :
    ∃ cops soC' pops so', lowerCall rt ts soC = some (cops, soC') ∧ lowerBegin rt ts so = some (pops, so') ∧
      (ec.sp + argBytes rt ts ≤ ec.fp - soC' → Sent ts adr (Used ec.sp ec.fp (argBytes rt ts) soC soC' so') s0 →
        ∃ s1 s2, exec ec cops s0 = some s1 ∧ exec ee pops s1 = some s2 ∧
          Received fieldByte ts adr (Used ec.sp ec.fp (argBytes rt ts) soC soC' so') s0 s2 ∧
          (viaMem rt = true → PtrAt s2 (.var (.formal ts.length)) (ec.fp - soC'))) := by
  obtain ⟨ps, nx', nv', ns', R, hcall, hab, hpcs⟩ := fits_run hf
  have hres : resOk rt = true := by simp only [fits, Bool.and_eq_true] at hf; exact hf.1
  obtain ⟨q1, q2, q3, q4⟩ := ops_eq ec.fp R (cnt0 _) 0 soC so
  obtain ⟨F, PW, L⟩ := mkItems_facts (sp := ec.sp) (fpc := ec.fp) R (cnt0 _) 0 soC so hso
  cases hm : viaMem rt with
  | true =>
    rw [hm] at R hpcs
    cases rt with
    | none => cases hm
    | some t =>
      have hm' : memResIn t = true := hm
      have hrp : resPos t = some ⟨1, .i64, none⟩ := by simp [resPos, posOf_mem hres hm']
      have hpx : posOf (.scal .i64) 0 0 32 = some (⟨0, .i64, none⟩, 1, 0, 32) := by decide +kernel
      have hpar : param ts.length (.scal .i64) ⟨0, .i64, none⟩ so = some ((xItem ts.length).inOps, so) := by
        simp [param, Ty.isAgg, inOpd, regOf, immKind, Scal.isF, Scal.size, xItem, Item.inOps, Ty.ind, PL.opdIn]
      have eB : lowerBegin (some t) ts so = some ((xItem ts.length).inOps ++ (mkItems ec.fp 0 ts ps soC so).flatMap Item.inOps, finSo ts ps so) := by
        have hpcs' : pcs ts 1 0 32 = some (ps, ns') := hpcs
        simp only [lowerBegin, hm', if_true, List.singleton_append, List.map_cons, number_snd, pcs, hpx, hpcs', Option.bind_eq_bind,
          Option.bind_some, params, hpar, q4]
      have eC : lowerCall (some t) ts soC = some ((mkItems ec.fp 0 ts ps soC so).flatMap Item.copyOps ++
          (((mkItems ec.fp 0 ts ps soC so).flatMap Item.units).filter U.isStk).flatMap U.ops ++
          [allocOp (finC ts ps soC) t (.actual ts.length), .mov (.gp 0) (.var (.actual ts.length)) 8] ++
          (((mkItems ec.fp 0 ts ps soC so).flatMap Item.units).filter fun u => !u.isStk).flatMap U.ops, allocOff (finC ts ps soC) t) := by
        simp only [lowerCall, hrp, hcall, q1, q2, q3, Option.bind_eq_bind, Option.bind_some]
        rfl
      refine ⟨_, _, _, _, eC, eB, ?_⟩
      intro hfr hs
      generalize hB : ec.fp - (allocOff (finC ts ps soC) t : Int) = B at *
      have hv : ∀ c, (∀ k, c ≠ .var (.actual ts.length) k) → putPtr s0 (.var (.actual ts.length)) B c = s0 c := fun c h => putPtr_var h
      have hlt : ∀ {i : Nat} {u : Ty}, ts[i]? = some u → i < ts.length := fun h => (List.getElem?_eq_some_iff.1 h).1
      have hs' : Sent ts adr (Used ec.sp ec.fp (argBytes (some t) ts) soC (allocOff (finC ts ps soC) t) (finSo ts ps so))
          (putPtr s0 (.var (.actual ts.length)) B) := by
        refine ⟨fun i u h hu => ⟨fun k hk => ?_, (hs.object i u h hu).2⟩⟩
        have := hlt h
        exact (hv _ (by simp [Loc.at]; omega)).trans ((hs.object i u h hu).1 k hk)
      have hC : finC ts ps soC ≤ allocOff (finC ts ps soC) t := by
        have := allocOff_size (so := finC ts ps soC) (t := t); omega
      obtain ⟨s1, s2, e1, e2, Rc⟩ := pass (b := true) (soC := soC) (so := so) hfp R hab hso hC (by omega) hs'
      simp only [if_true] at e1 e2
      refine ⟨s1, s2, ?_, e2, ?_, ?_⟩
      · rw [List.append_assoc, exec_append] at e1
        rw [exec_comm] at e1
        · rw [List.append_assoc, exec_append]
          generalize hA : exec ec _ s0 = A at e1 ⊢
          cases A with
          | none => cases e1
          | some sm =>
            simp only [Option.map_some, Option.bind_some] at e1 ⊢
            refine exec_cons_some ?_ e1
            simp only [allocOp, step, Opd.loc, Option.bind_eq_bind, Option.bind_some]
            rw [← Int.sub_eq_add_neg, hB]
        · intro o ho
          rcases List.mem_append.1 ho with ho | ho
          · obtain ⟨it, hit, ho⟩ := List.mem_flatMap.1 ho
            have := (F it hit).lt
            exact copyOps_avoids (by omega) (fun h => by obtain ⟨o, h1, _⟩ := (F it hit).ref h; exact ⟨_, h1⟩) o ho
          · obtain ⟨u, hu, ho⟩ := List.mem_flatMap.1 ho
            obtain ⟨it, hit, hu'⟩ := List.mem_flatMap.1 (List.mem_filter.1 hu).1
            have := (F it hit).lt
            exact units_avoids (by rw [unit_i hu']; omega) o ho
      · have hget : ∀ {i : Nat} {u : Ty}, ts[i]? = some u → (Arm.allTypes true ts)[i]? = some u := by
          intro i u h
          unfold Arm.allTypes; rw [List.getElem?_append_left (hlt h)]; exact h
        refine ⟨?_, ?_, ?_⟩
        · intro i s h k hk
          have := hlt h
          rw [Rc.scalar i s (hget h) k hk]
          exact hv _ (by simp; omega)
        · obtain ⟨home, h1, h2⟩ := Rc.object
          refine ⟨home, ?_, fun i j t u hi hj => h2 i j t u (hget hi) (hget hj)⟩
          intro i u hi hu
          obtain ⟨g1, g2⟩ := h1 i u (hget hi) hu
          exact ⟨g1, fun k hk => ⟨(g2 k hk).1.trans (hv _ (by simp)), (g2 k hk).2⟩⟩
        · intro a ha
          exact (Rc.others a ha).trans (hv _ (by simp))
      · intro _ k hk
        have := Rc.scalar ts.length .i64 (by simp [Arm.allTypes]) k hk
        exact this.trans (putPtr_at (d := .var (.actual ts.length)) hk)
  | false =>
    rw [hm] at R hpcs
    have hpcs' : pcs ts 0 0 32 = some (ps, ns') := hpcs
    have e1 : lowerCall rt ts soC = some ((mkItems ec.fp 0 ts ps soC so).flatMap Item.copyOps ++
        (((mkItems ec.fp 0 ts ps soC so).flatMap Item.units).filter U.isStk).flatMap U.ops ++
        (((mkItems ec.fp 0 ts ps soC so).flatMap Item.units).filter fun u => !u.isStk).flatMap U.ops, finC ts ps soC) := by
      cases rt with
      | none => simp only [lowerCall, hcall, q1, q2, q3, Option.bind_eq_bind, Option.bind_some]
      | some t =>
        obtain ⟨p, hp1, hp2⟩ := resPos_not hres hm
        have hp3 : (p.main == 1) = false := by simpa using hp2
        simp only [lowerCall, hp1, hp3, hcall, q1, q2, q3, Option.bind_eq_bind, Option.bind_some, Bool.false_eq_true, if_false]
    have e2 : lowerBegin rt ts so = some ((mkItems ec.fp 0 ts ps soC so).flatMap Item.inOps, finSo ts ps so) := by
      cases rt with
      | none => simp only [lowerBegin, List.nil_append, number_snd, hpcs', Option.bind_eq_bind, Option.bind_some, q4]
      | some t =>
        have hm' : memResIn t = false := hm
        simp only [lowerBegin, hm', Bool.false_eq_true, if_false, List.nil_append, number_snd, hpcs', Option.bind_eq_bind, Option.bind_some, q4]
    refine ⟨_, _, _, _, e1, e2, ?_⟩
    intro hfr hs
    obtain ⟨s1, s2, x1, x2, Rc⟩ := pass (b := false) (soC := soC) (so := so) hfp R hab hso (Nat.le_refl _) hfr hs
    simp only [Bool.false_eq_true, if_false, List.append_nil, List.nil_append] at x1 x2
    refine ⟨s1, s2, x1, x2, ?_, fun h => by cases h⟩
    simpa [Arm.allTypes] using Rc

/-! ### Results -/

/-- A result type the code handles: an object has fewer than 256 bytes, an array more than 16; a struct of up to 16 bytes is as
`okTy` says, and no second part of it is to be returned in a0. -/
def retOk (t : Ty) : Bool :=
  match t with
  | .scal _ => true
  | .arr n e => decide (16 < sizeOf (.arr n e)) && decide (sizeOf (.arr n e) < 256)
  | .agg es => decide (sizeOf (.agg es) < 256) && (decide (16 < sizeOf (.agg es)) || (okTys es && match posOf (.agg es) 0 0 32 with
    | some (p, _) => (match p.attach with | some (a, _) => decide (a ≠ 0) | none => true)
    | none => false))

/-- The parts of a position. -/
def partsOf (p : Pos) : List (PL × Nat × Nat) :=
  (plOf p.main p.kind, 0, p.kind.size) :: match p.attach with | none => [] | some (a, k, off) => [(plOf a k, off, k.size)]

theorem slot_ne {k k' : Scal} {nx nv ns m nx1 nv1 ns1 m' nx' nv' ns' : Nat} (h : Slot k nx nv ns m nx1 nv1 ns1) (h' : Slot k' nx1 nv1 ns1 m' nx' nv' ns')
    (hc : Cnt nx nv ns) : plOf m k ≠ plOf m' k' := by
  intro e
  have a := h.mono hc.1 hc.2.1 hc.2.2.1 hc.2.2.2
  have hc1 : Cnt nx1 nv1 ns1 := ⟨a.2.1, a.2.2.2.1, a.2.2.2.2.2.1, by have := hc.2.2.2; omega⟩
  have z1 := h.zone hc (sp := 0) (n := 1) (by omega) (c := ((plOf m k).loc 0).at 0) ⟨0, by omega, rfl⟩
  have z2 := h'.zone hc1 (sp := 0) (n := 1) (by omega) (c := ((plOf m' k').loc 0).at 0) ⟨0, by omega, rfl⟩
  rw [e] at z1
  exact z1.apart z2

/-- A call gets the result returned. -/
theorem ret_ok {t : Ty} {r b : Int} {e e' : Env} {s3 : State} {so : Nat} (hs : retOk t = true)
    (h : Returning t (if memResIn t then [.big, .res] else []) r b s3) (hb : memResIn t = false → t.ind = true → b = e'.fp - allocOff so t) :
    ∃ rops lops s4 s5, lowerReturn t = some rops ∧ lowerResult t so = some lops ∧ exec e rops s3 = some s4 ∧ exec e' lops s4 = some s5 ∧
      Returned fieldByte t r b s3 s5 := by
  have hroom : sizeOf t ≤ room t ∧ (8 < sizeOf t → 16 ≤ room t) ∧ 8 ≤ room t := by
    unfold room; rw [alignUp_eight]; split <;> omega
  cases hm : memResIn t with
  | true =>
    rw [hm, if_pos rfl] at h
    have ht : t.ind = true := by cases t <;> first | rfl | cases hm
    have hsz : 16 < sizeOf t ∧ sizeOf t < 256 := by
      cases t with
      | scal s => cases hm
      | arr n e => simpa [retOk] using hs
      | agg es =>
        simp [memResIn, Ty.ind, Ty.isAgg] at hm
        simp only [retOk, Bool.and_eq_true, decide_eq_true_eq] at hs
        exact ⟨hm, hs.1⟩
    have hro : resOk (some t) = true := by
      cases t with
      | scal s => cases hm
      | arr n e => rfl
      | agg es =>
        have : ¬ sizeOf (.agg es) % 65536 ≤ 16 := by omega
        simp only [resOk, Bool.and_eq_true, decide_eq_true_eq]
        refine ⟨by omega, ?_⟩
        simp [posOf, Ty.ind, Ty.isAgg, show 16 < sizeOf (.agg es) % 65536 by omega]
    have hp := posOf_mem hro hm
    obtain ⟨s4, s5, x1, x2, x3⟩ := mem_ok (P := fieldByte) (e := e) (e' := e') (fun k hk => fieldByte_lt t k hk) ht h
    refine ⟨_, _, s4, s5, ?_, ?_, x1, x2, x3⟩
    · have h256 : sizeOf t % 256 = sizeOf t := Nat.mod_eq_of_lt hsz.2
      have h16 : ¬ sizeOf t ≤ 16 := by omega
      simp [lowerReturn, hp, h256, h16, hsz.1]
    · simp [lowerResult, resPos, hp]
  | false =>
    rw [hm, if_neg (by simp)] at h
    cases t with
    | arr n e => simp [memResIn, Ty.ind, Ty.isAgg] at hm
    | scal s =>
      obtain ⟨s4, s5, x1, x2, x3⟩ := scal_ok (P := fieldByte) (s := s) (e := e) (e' := e') (r := r) (b := b) (s3 := s3)
        (p := if s.isF then .fp 0 else .gp 0) (by split <;> rfl)
      have hsp := size_pos s
      have hs0 : sizeOf (.scal s) % 65536 ≠ 0 := by rw [sizeOf]; omega
      have hs1 : ¬ 16 < sizeOf (.scal s) % 256 := by rw [sizeOf]; omega
      refine ⟨_, _, s4, s5, ?_, ?_, x1, x2, x3⟩
      · cases hf : s.isF <;> simp [lowerReturn, posOf, Ty.ind, regPass_scal, hs0, hs1, hf, Ty.isAgg, immKind, PL.opd]
      · cases hf : s.isF <;> simp [lowerResult, resPos, posOf, Ty.ind, regPass_scal, hs0, hf, Ty.isAgg, immKind, PL.opd]
    | agg es =>
      have hb := hb hm rfl
      simp only [retOk, Bool.and_eq_true, Bool.or_eq_true, decide_eq_true_eq] at hs
      have h16 : sizeOf (.agg es) ≤ 16 := by
        simp [memResIn, Ty.ind, Ty.isAgg] at hm; exact hm
      have hs2 := hs.2.resolve_left (by omega)
      have h256 : sizeOf (.agg es) % 256 = sizeOf (.agg es) := Nat.mod_eq_of_lt hs.1
      cases hp : posOf (.agg es) 0 0 32 with
      | none => rw [hp] at hs2; simp at hs2
      | some q =>
        obtain ⟨p, nx', nv', ns'⟩ := q
        obtain ⟨z1, z2, z3⟩ := posOf_zero hp
        dsimp only at z1 z2 z3
        have hne : p.main ≠ 1 := by
          intro h1
          have := z2 h1
          simp [Ty.isAgg, Nat.mod_eq_of_lt (show sizeOf (.agg es) < 65536 by omega)] at this
          omega
        have hlt : p.main < 32 := by omega
        have hatt : ∀ a k off, p.attach = some (a, k, off) → 0 < a := by
          intro a k off ha
          have := hs2.2
          simp only [hp, ha, decide_eq_true_eq] at this
          omega
        have e1 : lowerReturn (.agg es) = some (retOps (partsOf p)) := by
          simp only [lowerReturn, hp, Option.bind_eq_bind, Option.bind_some, Ty.isAgg, h256, h16, and_self, if_true]
          cases ha : p.attach with
          | none => simp [partsOf, ha, retOps, (plOf_reg (k := p.kind) hlt).1]
          | some x =>
            obtain ⟨a, k, off⟩ := x
            simp [partsOf, ha, retOps, (plOf_reg (k := p.kind) hlt).1, (plOf_reg (k := k) (z3 a k off ha)).1, hatt a k off ha]
        have e2 : lowerResult (.agg es) so = some (allocOp so (.agg es) .res :: resOps (partsOf p)) := by
          have hrp : resPos (.agg es) = some p := by simp only [resPos, hp, Option.bind_eq_bind, Option.bind_some]; rw [if_pos z1]
          simp only [lowerResult, hrp, Option.bind_eq_bind, Option.bind_some, if_neg hne, Ty.isAgg, h256, h16, and_self, if_true]
          cases ha : p.attach with
          | none => simp [partsOf, ha, resOps, (plOf_reg (k := p.kind) hlt).1]
          | some x =>
            obtain ⟨a, k, off⟩ := x
            simp [partsOf, ha, resOps, (plOf_reg (k := p.kind) hlt).1, (plOf_reg (k := k) (z3 a k off ha)).1]
        have key : ∀ {ps : List (PL × Nat × Nat)}, partsOf p = ps → Regs ps → (∀ q ∈ ps, q.2.1 + q.2.2 ≤ room (.agg es)) →
            (ps.Pairwise fun p q => p.2.1 + p.2.2 ≤ q.2.1) → (∀ k, fieldByte (.agg es) k → ∃ p ∈ ps, p.2.1 ≤ k ∧ k < p.2.1 + p.2.2) →
            ∃ rops lops s4 s5, lowerReturn (.agg es) = some rops ∧ lowerResult (.agg es) so = some lops ∧ exec e rops s3 = some s4 ∧
              exec e' lops s4 = some s5 ∧ Returned fieldByte (.agg es) r b s3 s5 := by
          intro ps hps k1 k2 k3 k4
          obtain ⟨s4, s5, x1, x2, x3⟩ := regs_alloc_ok (P := fieldByte) (e := e) (e' := e') (so := so) rfl k1 k2 k3 k4 h hb
          exact ⟨_, _, s4, s5, e1, e2, by rw [hps]; exact x1, by rw [hps]; exact x2, x3⟩
        by_cases h0 : sizeOf (.agg es) = 0
        · have hp' : ∃ k, p = ⟨0, k, none⟩ := by
            simp only [posOf, Ty.ind, Ty.isAgg, h0] at hp
            cases hr : regPass (.agg es) 0 with
            | none => simp [hr] at hp
            | some q => simp [hr] at hp; exact ⟨_, hp.1.symm⟩
          obtain ⟨k, rfl⟩ := hp'
          refine key rfl ⟨?_, ?_⟩ ?_ ?_ ?_
          · simp [partsOf, (plOf_reg (k := k) hlt).2]
          · simp [partsOf]
          · have := size_pos k
            simp [partsOf]; omega
          · simp [partsOf]
          · intro k hk; have := fieldByte_lt _ _ hk; omega
        · have hf : fits1 (.agg es) = true := by
            simp only [fits1, Bool.and_eq_true, Bool.or_eq_true, decide_eq_true_eq]
            exact ⟨⟨h0, by omega⟩, .inr hs2.1⟩
          have C := posOf_case hp hf
          dsimp only at C
          have hc0 : Cnt 0 0 32 := ⟨by omega, by omega, rfl, Nat.le_refl _⟩
          cases C with
          | refReg _ _ => exact absurd rfl hne
          | refStk _ => simp at hlt
          | scal h1 => cases h1
          | @one _ a m _ _ _ h1 h2 h3 h4 =>
            have hra := h2.range a (by simp)
            refine key rfl ⟨?_, ?_⟩ ?_ ?_ ?_
            · simp [partsOf, (plOf_reg (k := a.kind) hlt).2]
            · simp [partsOf]
            · simp [partsOf]; omega
            · simp [partsOf]
            · intro k hk
              obtain ⟨x, hx, q⟩ := h2.cover k hk
              rw [List.mem_singleton] at hx; subst hx
              exact ⟨_, List.mem_cons_self .., by dsimp only; omega, by dsimp only; omega⟩
          | @two _ a bb m m' _ _ _ _ _ _ h1 h2 h3 h4 h5 =>
            have hra := h2.range a (by simp)
            have hrb := h2.range bb (by simp)
            have hpw : a.off + a.kind.size ≤ bb.off := by simpa using h2.pw
            have hm' := z3 m' bb.kind bb.off rfl
            have hne := slot_ne h4 h5 hc0
            refine key rfl ⟨?_, ?_⟩ ?_ ?_ ?_
            · simp [partsOf, (plOf_reg (k := a.kind) hlt).2, (plOf_reg (k := bb.kind) hm').2]
            · simpa [partsOf] using hne
            · simp [partsOf]; omega
            · simp [partsOf]; omega
            · intro k hk
              obtain ⟨x, hx, q⟩ := h2.cover k hk
              simp only [List.mem_cons, List.not_mem_nil, or_false] at hx
              rcases hx with rfl | rfl
              · exact ⟨_, List.mem_cons_self .., by dsimp only; omega, by dsimp only; omega⟩
              · exact ⟨_, List.mem_cons_of_mem _ (List.mem_cons_self ..), by dsimp only; omega, by dsimp only; omega⟩

end Nature.Abi.Rv
