import Verif.Abi.ArmArgs
/-
arm64: a call.
-/
namespace Nature.Abi
open Nature.TypeLayout

/-! ### Taking an address commutes with what does not use the variable -/

def Opd.avoids (v : V) : Opd → Prop
  | .var w => w ≠ v
  | .ind w _ => w ≠ v
  | _ => True

def Op.avoids (v : V) : Op → Prop
  | .mov d x _ => d.avoids v ∧ x.avoids v
  | .lea d x => d.avoids v ∧ x.avoids v

theorem putPtr_var {s : State} {v : V} {b : Int} {c : CL} (h : ∀ k, c ≠ .var v k) : putPtr s (.var v) b c = s c := by
  unfold putPtr
  cases c with
  | var w k =>
    have : v ≠ w := by rintro rfl; exact h k rfl
    simp [Loc.idx, this]
  | _ => rfl

theorem loc_avoids {e : Env} {s : State} {v : V} {b : Int} {x : Opd} (h : x.avoids v) : x.loc e (putPtr s (.var v) b) = x.loc e s := by
  cases x with
  | ind w off =>
    have hw : ∀ k, putPtr s (.var v) b ((Loc.var w).at k) = s ((Loc.var w).at k) := fun k => by
      refine putPtr_var fun k' e => ?_
      simp only [Loc.at, CL.var.injEq] at e
      exact h e.1
    simp only [Opd.loc, getPtr, hw]
  | _ => rfl

theorem loc_cells {e : Env} {s : State} {v : V} {x : Opd} {l : Loc} (h : x.avoids v) (hl : x.loc e s = some l) : ∀ k k', l.at k ≠ .var v k' := by
  intro k k' e'
  cases x with
  | var w =>
    simp only [Opd.loc, Option.some.injEq] at hl; subst hl
    simp only [Loc.at, CL.var.injEq] at e'
    exact h e'.1
  | ind w off =>
    simp only [Opd.loc, Option.map_eq_some_iff] at hl
    obtain ⟨a, _, rfl⟩ := hl
    cases e'
  | gp r => simp only [Opd.loc, Option.some.injEq] at hl; subst hl; cases e'
  | fp r => simp only [Opd.loc, Option.some.injEq] at hl; subst hl; cases e'
  | spo r => simp only [Opd.loc, Option.some.injEq] at hl; subst hl; cases e'
  | slot r => simp only [Opd.loc, Option.some.injEq] at hl; subst hl; cases e'

theorem loc_idx {e : Env} {s : State} {v : V} {x : Opd} {l : Loc} (h : x.avoids v) (hl : x.loc e s = some l) (k : Nat) : l.idx (.var v k) = none := by
  cases l with
  | var w =>
    have := loc_cells h hl 0 0
    simp only [Loc.at, ne_eq, CL.var.injEq, and_true] at this
    simp [Loc.idx, this]
  | _ => rfl

theorem copy_comm {s : State} {v : V} {b : Int} {d l : Loc} {n : Nat} (hd : ∀ k, d.idx (.var v k) = none) (hl : ∀ k k', l.at k ≠ .var v k') :
    copy (putPtr s (.var v) b) d l n = putPtr (copy s d l n) (.var v) b := by
  funext c
  by_cases hc : ∃ k, c = .var v k
  · obtain ⟨k, rfl⟩ := hc
    simp only [copy, hd]
    simp only [putPtr, Loc.idx, if_true]
    split
    · rfl
    · simp only [copy, hd]
  · have hc' : ∀ k, c ≠ .var v k := fun k e => hc ⟨k, e⟩
    rw [putPtr_var hc']
    simp only [copy]
    split
    · rw [putPtr_var (hl _)]
      split
      · rfl
      · exact putPtr_var hc'
    · exact putPtr_var hc'

theorem put_comm {s : State} {v : V} {a b : Int} {d : Loc} (hd : ∀ k, d.idx (.var v k) = none) :
    putPtr (putPtr s (.var v) b) d a = putPtr (putPtr s d a) (.var v) b := by
  funext c
  by_cases hc : ∃ k, c = .var v k
  · obtain ⟨k, rfl⟩ := hc
    rw [putPtr, hd]
    simp only [putPtr, Loc.idx, if_true]
    split
    · rfl
    · show s _ = match d.idx (.var v k) with
        | some j => if j < 8 then Cell.ptr a j else s (.var v k)
        | none => s (.var v k)
      rw [hd]
  · have hc' : ∀ k, c ≠ .var v k := fun k e => hc ⟨k, e⟩
    rw [putPtr_var hc']
    simp only [putPtr.eq_1 _ d]
    split
    · split
      · rfl
      · exact putPtr_var hc'
    · exact putPtr_var hc'

theorem step_comm {e : Env} {s : State} {v : V} {b : Int} {o : Op} (h : o.avoids v) :
    step e (putPtr s (.var v) b) o = (step e s o).map fun s' => putPtr s' (.var v) b := by
  cases o with
  | mov d x n =>
    obtain ⟨hd, hx⟩ := h
    simp only [step, loc_avoids hd, loc_avoids hx]
    cases h1 : d.loc e s with
    | none => rfl
    | some ld =>
      cases h2 : x.loc e s with
      | none => rfl
      | some lx =>
        simp only [Option.bind_eq_bind, Option.bind_some, Option.map_some]
        rw [copy_comm (loc_idx hd h1) (loc_cells hx h2)]
  | lea d x =>
    obtain ⟨hd, hx⟩ := h
    simp only [step, loc_avoids hd, loc_avoids hx]
    cases h1 : d.loc e s with
    | none => rfl
    | some ld =>
      cases h2 : x.loc e s with
      | none => rfl
      | some lx =>
        cases lx with
        | mem a =>
          simp only [Option.bind_eq_bind, Option.bind_some, Option.map_some]
          rw [put_comm (loc_idx hd h1)]
        | _ => rfl

theorem exec_comm {e : Env} {v : V} {b : Int} : ∀ {os : List Op} {s : State}, (∀ o ∈ os, o.avoids v) →
    exec e os (putPtr s (.var v) b) = (exec e os s).map fun s' => putPtr s' (.var v) b
  | [], s, _ => rfl
  | o :: os, s, h => by
    rw [exec, exec, step_comm (h o (List.mem_cons_self ..))]
    cases h1 : step e s o with
    | none => rfl
    | some s1 =>
      simp only [Option.bind_eq_bind, Option.bind_some, Option.map_some]
      exact exec_comm fun o' ho => h o' (List.mem_cons_of_mem _ ho)

/-- What is emitted for an argument uses only its own variables. -/
theorem memMov_avoids {i n j size : Nat} (h : i ≠ n) : ∀ o ∈ memMov i size (.work i j) (.actual i), o.avoids (.actual n) := by
  intro o ho
  simp only [memMov, List.mem_flatMap] at ho
  obtain ⟨c, _, ho⟩ := ho
  simp only [List.mem_cons, List.not_mem_nil, or_false] at ho
  rcases ho with rfl | rfl <;> simp [Op.avoids, Opd.avoids, h]

theorem copyOps_avoids {it : Item} {n : Nat} (h : it.i ≠ n) (hx : it.isRef = true → ∃ o, it.cpx = .slot o) : ∀ o ∈ it.copyOps, o.avoids (.actual n) := by
  intro o ho
  unfold Item.copyOps at ho
  unfold Item.isRef at hx
  split at ho
  · rename_i l hl
    rw [hl] at hx
    rcases List.mem_cons.1 ho with rfl | ho
    · obtain ⟨o, ho⟩ := hx rfl
      rw [ho]; simp [Op.avoids, Opd.avoids]
    · exact memMov_avoids h o ho
  · cases ho

theorem PL.opd_avoids {v : V} (l : PL) : l.opd.avoids v := by cases l <;> trivial

theorem units_avoids {u : U} {n : Nat} (h : u.i ≠ n) : ∀ o ∈ u.ops, o.avoids (.actual n) := by
  intro o ho
  cases u with
  | part i t l off m ex =>
    have hi : i ≠ n := h
    have hs : (if t.ind then Opd.ind (.actual i) off else .var (.actual i)).avoids (.actual n) := by
      split <;> simp [Opd.avoids, hi]
    cases ex with
    | plain =>
      simp only [U.ops, List.mem_singleton] at ho; subst ho
      exact ⟨l.opd_avoids, hs⟩
    | temp =>
      simp only [U.ops, List.mem_cons, List.not_mem_nil, or_false] at ho
      rcases ho with rfl | rfl
      · exact ⟨by simp [Opd.avoids], hs⟩
      · exact ⟨l.opd_avoids, by simp [Opd.avoids]⟩
    | mirror g home =>
      simp only [U.ops, List.mem_cons, List.not_mem_nil, or_false] at ho
      rcases ho with rfl | rfl | rfl
      · exact ⟨l.opd_avoids, by simp [Opd.avoids, hi]⟩
      · exact ⟨trivial, by simp [Opd.avoids, hi]⟩
      · exact ⟨trivial, trivial⟩
  | whole i t off =>
    simp only [U.ops] at ho
    rcases List.mem_cons.1 ho with rfl | ho
    · simp [Op.avoids, Opd.avoids]
    · exact memMov_avoids h o ho
  | ptr i l =>
    simp only [U.ops, List.mem_singleton] at ho; subst ho
    exact ⟨l.opd_avoids, by simp [Opd.avoids]⟩

end Nature.Abi

namespace Nature.Abi.Arm
open Nature.TypeLayout

theorem memRes_eq (t : Ty) : memRes t = memResIn t := by
  cases t with
  | arr n e => simp [memRes, memResIn, posOf]
  | scal s => cases h : s.isF <;> simp [memRes, memResIn, posOf, h]
  | agg es =>
    simp only [memRes, memResIn, posOf]
    by_cases h : (hfa (.agg es)).1 = 0 ∧ 16 < sizeOf (.agg es)
    · rw [if_pos h]; simp [h]
    · rw [if_neg h]
      have hr : ((hfa (.agg es)).1 == 0 && decide (16 < sizeOf (.agg es))) = false := by
        rw [Bool.eq_false_iff]; intro h'; simp at h'; exact h h'
      rw [hr]
      by_cases h1 : (hfa (.agg es)).1 = 0
      · have : alignUp (sizeOf (.agg es)) 8 ≤ 64 := by rw [alignUp_eight]; omega
        simp [h1, this]
      · have : (hfa (.agg es)).1 ≤ 8 := by
          rcases hfa_spec (.agg es) with h | h
          · rw [h]; omega
          · omega
        simp [h1, this]

/-- The result goes through memory. -/
def viaMem : Option Ty → Bool
  | some t => memRes t
  | none => false

/-- The caller's `c->stack_offset` after the call is lowered. -/
def callOff (rt : Option Ty) (ts : List Ty) (soC : Nat) : Nat :=
  match rt with
  | some t => if memRes t then allocOff (finC ts (pcs ts 0 0 32).1 soC) t else finC ts (pcs ts 0 0 32).1 soC
  | none => finC ts (pcs ts 0 0 32).1 soC

theorem callOff_ge (rt : Option Ty) (ts : List Ty) (soC : Nat) : finC ts (pcs ts 0 0 32).1 soC ≤ callOff rt ts soC := by
  unfold callOff
  split
  · split
    · have := allocOff_size (so := finC ts (pcs ts 0 0 32).1 soC) (t := ‹Ty›); omega
    · exact Nat.le_refl _
  · exact Nat.le_refl _

def xUnit (n : Nat) : U := .part n (.scal .i64) (.gp 8) 0 8 .plain

theorem xUnits (n : Nat) : (xItem n).units = [xUnit n] := rfl

theorem unit_i {it : Item} {u : U} (h : u ∈ it.units) : u.i = it.i := by
  unfold Item.units at h
  split at h
  · obtain ⟨p, _, rfl⟩ := List.mem_map.1 h; rfl
  · rw [List.mem_singleton] at h; subst h; rfl
  · rw [List.mem_singleton] at h; subst h; rfl

/-- Everything the caller does, but for the result. -/
theorem pass {b : Bool} {ts : List Ty} {soC so soC' : Nat} {s0 : State} {adr : Nat → Int} {ec ee : Env} (hfp : ee.fp = ec.sp - 16)
    (hf : fits ts = true) (hso : so % 8 = 0) (hC : finC ts (pcs ts 0 0 32).1 soC ≤ soC') (hfr : ec.sp + argBytes ts ≤ ec.fp - soC')
    (hs : Sent ts adr (Used ec.sp ec.fp (argBytes ts) soC soC' (finSo ts (pcs ts 0 0 32).1 so)) s0) :
    ∃ s1 s2, exec ec ((mkItems ec.fp 0 ts (pcs ts 0 0 32).1 soC so).flatMap Item.copyOps ++
        (emitOrder ((mkItems ec.fp 0 ts (pcs ts 0 0 32).1 soC so).flatMap Item.units)).flatMap U.ops ++
        (if b then (xUnit ts.length).ops else [])) s0 = some s1 ∧
      exec ee ((if b then (xItem ts.length).inOps else []) ++ (mkItems ec.fp 0 ts (pcs ts 0 0 32).1 soC so).flatMap Item.inOps) s1 = some s2 ∧
      Received allBytes (allTypes b ts) adr (Used ec.sp ec.fp (argBytes ts) soC soC' (finSo ts (pcs ts 0 0 32).1 so)) s0 s2 := by
  obtain ⟨F, PW, L⟩ := mkItems_facts (sp := ec.sp) (fpc := ec.fp) ts 0 0 0 32 soC so hf cnt0 hso
  have hfg := fin_ge ts 0 0 32 hf cnt0
  have hab := argBytes_ge ts
  refine finish (items := allItems ec.fp b ts soC so)
    (us := emitOrder ((mkItems ec.fp 0 ts (pcs ts 0 0 32).1 soC so).flatMap Item.units) ++ if b then [xUnit ts.length] else [])
    rfl hfp (all_lists (sp := ec.sp) hf hso) (good rfl hf hso hC hfr hs) ?_ ?_ ?_ ?_ ?_
  · rintro a (⟨it, hit, h, k, hk, e⟩ | ⟨u, hu, h⟩ | ⟨it, hit, h, k, hk, e⟩)
    · rcases allItems_cases hit with ⟨_, rfl⟩ | hit
      · cases h
      · obtain ⟨o, e1, e2, h1, h2⟩ := (F it hit).ref h
        simp only [CL.mem.injEq] at e
        right; unfold Range; omega
    · obtain ⟨it, hit, hu'⟩ := List.mem_flatMap.1 hu
      rcases allItems_cases hit with ⟨_, rfl⟩ | hit
      · obtain ⟨k, e⟩ := xCells hu' h; cases e
      · rcases (F it hit).slot u hu' _ h with ⟨r, k, e, _⟩ | ⟨r, k, e, _⟩ | ⟨x, e, h1, h2⟩
        · cases e
        · cases e
        · simp only [CL.mem.injEq] at e
          left; unfold Range; omega
    · rcases allItems_cases hit with ⟨_, rfl⟩ | hit
      · cases h
      · have := (F it hit).loc h
        simp only [CL.mem.injEq] at e
        left; unfold Range; omega
  · intro it hit
    rcases allItems_cases hit with ⟨_, rfl⟩ | hit
    · rfl
    · exact (F it hit).P
  · cases b with
    | false => simpa [allItems] using emitOrder_perm _
    | true =>
      simp only [allItems, if_true, List.flatMap_append, List.flatMap_singleton, xUnits]
      exact List.perm_append_comm.trans (List.Perm.append_left _ (emitOrder_perm _))
  · cases b with
    | false => simp [allItems]
    | true => simp [allItems, Item.copyOps, xItem, List.flatMap_append]
  · cases b with
    | false => simp [allItems]
    | true => simp [allItems]

/-- A call passes its arguments. -/
theorem args_ok {rt : Option Ty} {ts : List Ty} {soC so : Nat} {s0 : State} {adr : Nat → Int} {ec ee : Env} (hfp : ee.fp = ec.sp - 16)
    (hf : fits ts = true) (hso : so % 8 = 0) :
    ∃ cops soC' pops so', lowerCall rt ts soC = some (cops, soC') ∧ lowerBegin rt ts so = some (pops, so') ∧
      (ec.sp + argBytes ts ≤ ec.fp - soC' → Sent ts adr (Used ec.sp ec.fp (argBytes ts) soC soC' so') s0 →
        ∃ s1 s2, exec ec cops s0 = some s1 ∧ exec ee pops s1 = some s2 ∧
          Received allBytes ts adr (Used ec.sp ec.fp (argBytes ts) soC soC' so') s0 s2 ∧
          (viaMem rt = true → PtrAt s2 (.var (.formal ts.length)) (ec.fp - soC'))) := by
  obtain ⟨q1, q2, q3, q4⟩ := ops_eq ec.fp ts 0 0 0 32 soC so hf cnt0
  obtain ⟨F, PW, L⟩ := mkItems_facts (sp := ec.sp) (fpc := ec.fp) ts 0 0 0 32 soC so hf cnt0 hso
  by_cases hm : viaMem rt = true
  · cases rt with
    | none => cases hm
    | some t =>
      have hm' : memRes t = true := hm
      have hm2 : memResIn t = true := by rw [← memRes_eq]; exact hm'
      refine ⟨_, _, _, _, by simp only [lowerCall, q1, q2, q3, hm', Option.bind_eq_bind, Option.bind_some, if_true]; rfl,
        by simp only [lowerBegin, q4, hm2, Option.bind_eq_bind, Option.bind_some, if_true]; rfl, ?_⟩
      intro hfr hs
      generalize hB : ec.fp - (allocOff (finC ts (pcs ts 0 0 32).1 soC) t : Int) = B at *
      have hv : ∀ c, (∀ k, c ≠ .var (.actual ts.length) k) → putPtr s0 (.var (.actual ts.length)) B c = s0 c := fun c h => putPtr_var h
      have hlt : ∀ {i : Nat} {u : Ty}, ts[i]? = some u → i < ts.length := fun h => (List.getElem?_eq_some_iff.1 h).1
      have hs' : Sent ts adr (Used ec.sp ec.fp (argBytes ts) soC (allocOff (finC ts (pcs ts 0 0 32).1 soC) t) (finSo ts (pcs ts 0 0 32).1 so))
          (putPtr s0 (.var (.actual ts.length)) B) := by
        refine ⟨fun i u h hu => ⟨fun k hk => ?_, (hs.object i u h hu).2⟩⟩
        have := hlt h
        exact (hv _ (by simp [Loc.at]; omega)).trans ((hs.object i u h hu).1 k hk)
      have hC : finC ts (pcs ts 0 0 32).1 soC ≤ allocOff (finC ts (pcs ts 0 0 32).1 soC) t := by
        have := allocOff_size (so := finC ts (pcs ts 0 0 32).1 soC) (t := t); omega
      obtain ⟨s1, s2, e1, e2, R⟩ := pass (b := true) (soC := soC) (so := so) hfp hf hso hC (by omega) hs'
      simp only [if_true] at e1 e2
      refine ⟨s1, s2, ?_, e2, ?_, ?_⟩
      · rw [exec_append] at e1
        rw [exec_comm] at e1
        · simp only [emitOrder, List.flatMap_append, ← List.append_assoc] at e1
          rw [exec_append]
          generalize hA : exec ec _ s0 = A at e1 ⊢
          cases A with
          | none => cases e1
          | some sm =>
            simp only [Option.map_some, Option.bind_some] at e1 ⊢
            refine exec_cons_some ?_ e1
            simp only [allocOp, step, Opd.loc, Option.bind_eq_bind, Option.bind_some]
            rw [← Int.sub_eq_add_neg, hB]
        · intro o ho
          rcases List.mem_append.1 ho with ho | ho
          · obtain ⟨it, hit, ho⟩ := List.mem_flatMap.1 ho
            have := (F it hit).lt
            exact copyOps_avoids (by omega) (fun h => by obtain ⟨o, h1, _⟩ := (F it hit).ref h; exact ⟨_, h1⟩) o ho
          · obtain ⟨u, hu, ho⟩ := List.mem_flatMap.1 ho
            obtain ⟨it, hit, hu'⟩ := List.mem_flatMap.1 ((emitOrder_perm _).mem_iff.1 hu)
            have := (F it hit).lt
            exact units_avoids (by rw [unit_i hu']; omega) o ho
      · have hget : ∀ {i : Nat} {u : Ty}, ts[i]? = some u → (allTypes true ts)[i]? = some u := by
          intro i u h
          unfold allTypes; rw [List.getElem?_append_left (hlt h)]; exact h
        refine ⟨?_, ?_, ?_⟩
        · intro i s h k hk
          have := hlt h
          rw [R.scalar i s (hget h) k hk]
          exact hv _ (by simp; omega)
        · obtain ⟨home, h1, h2⟩ := R.object
          refine ⟨home, ?_, fun i j t u hi hj => h2 i j t u (hget hi) (hget hj)⟩
          intro i u hi hu
          obtain ⟨g1, g2⟩ := h1 i u (hget hi) hu
          exact ⟨g1, fun k hk => ⟨(g2 k hk).1.trans (hv _ (by simp)), (g2 k hk).2⟩⟩
        · intro a ha
          exact (R.others a ha).trans (hv _ (by simp))
      · intro _ k hk
        have := R.scalar ts.length .i64 (by simp [allTypes]) k hk
        exact this.trans (putPtr_at (d := .var (.actual ts.length)) hk)
  · have hm1 : viaMem rt = false := by simpa using hm
    have hC := callOff_ge rt ts soC
    have e1 : lowerCall rt ts soC = some ((mkItems ec.fp 0 ts (pcs ts 0 0 32).1 soC so).flatMap Item.copyOps ++
        (emitOrder ((mkItems ec.fp 0 ts (pcs ts 0 0 32).1 soC so).flatMap Item.units)).flatMap U.ops, finC ts (pcs ts 0 0 32).1 soC) := by
      cases rt with
      | none => simp only [lowerCall, q1, q2, q3, Option.bind_eq_bind, Option.bind_some, emitOrder, List.flatMap_append, List.append_assoc]
      | some t =>
        have hm' : memRes t = false := hm1
        simp only [lowerCall, q1, q2, q3, hm', Option.bind_eq_bind, Option.bind_some, emitOrder, List.flatMap_append, List.append_assoc,
          Bool.false_eq_true, if_false]
    have e2 : lowerBegin rt ts so = some ((mkItems ec.fp 0 ts (pcs ts 0 0 32).1 soC so).flatMap Item.inOps, finSo ts (pcs ts 0 0 32).1 so) := by
      cases rt with
      | none => simp only [lowerBegin, q4, Option.bind_eq_bind, Option.bind_some, List.nil_append]
      | some t =>
        have hm' : memResIn t = false := by rw [← memRes_eq]; exact hm1
        simp only [lowerBegin, q4, hm', Option.bind_eq_bind, Option.bind_some, List.nil_append, Bool.false_eq_true, if_false]
    refine ⟨_, _, _, _, e1, e2, ?_⟩
    intro hfr hs
    obtain ⟨s1, s2, x1, x2, R⟩ := pass (b := false) (soC := soC) (so := so) hfp hf hso (Nat.le_refl _) hfr hs
    simp only [Bool.false_eq_true, if_false, List.append_nil, List.nil_append] at x1 x2
    refine ⟨s1, s2, x1, x2, ?_, fun h => absurd h hm⟩
    simpa [allTypes] using R

end Nature.Abi.Arm

namespace Nature.Abi.Arm
open Nature.TypeLayout

/-- An array of at most 16 bytes. -/
def smallArr : Ty → Bool
  | .arr n e => decide (sizeOf (.arr n e) ≤ 16)
  | _ => false

/-- A call gets the result returned. -/
theorem ret_ok {t : Ty} {r b : Int} {e e' : Env} {s3 : State} {so : Nat} (hs : smallArr t = false)
    (h : Returning t (if memRes t then [.big, .res] else []) r b s3) (hb : memRes t = false → t.ind = true → b = e'.fp - allocOff so t) :
    ∃ s4 s5, exec e (lowerReturn t) s3 = some s4 ∧ exec e' (lowerResult t so) s4 = some s5 ∧ Returned allBytes t r b s3 s5 := by
  have hroom : sizeOf t ≤ room t ∧ (8 < sizeOf t → 16 ≤ room t) ∧ 8 ≤ room t := by
    unfold room; rw [alignUp_eight]; split <;> omega
  by_cases hm : memRes t = true
  · have hm2 := memRes_eq t
    rw [hm] at hm2
    rw [if_pos hm] at h
    have ht : t.ind = true := by cases t <;> first | rfl | cases hm2
    have hr : lowerReturn t = memMov 0 (sizeOf t) .big .ret := by
      cases t with
      | scal s => cases hm2
      | arr n e =>
        have h16 : 16 < sizeOf (.arr n e) := by simpa [smallArr] using hs
        simp [lowerReturn, Ty.isAgg, h16]
      | agg es =>
        simp only [memResIn, Bool.true_eq, Bool.and_eq_true, beq_iff_eq, decide_eq_true_eq] at hm2
        have : ¬ sizeOf (.agg es) ≤ 16 := by omega
        simp [lowerReturn, Ty.isAgg, hm2.1, this]
    have hl : lowerResult t so = [] := by simp [lowerResult, hm]
    rw [hr, hl]
    exact mem_ok (fun k hk => hk) ht h
  · have hm' : memRes t = false := by simpa using hm
    rw [if_neg hm] at h
    cases t with
    | arr n e => simp [memRes, posOf] at hm'
    | scal s =>
      have key := scal_ok (P := allBytes) (s := s) (e := e) (e' := e') (r := r) (b := b) (s3 := s3) (p := if s.isF then .fp 0 else .gp 0) (by split <;> rfl)
      have e1 : lowerReturn (.scal s) = [.mov (if s.isF then PL.fp 0 else PL.gp 0).opd (.var .ret) s.size] := by
        have : ¬ 16 < sizeOf (.scal s) := by cases s <;> simp [sizeOf, Scal.size]
        simp only [lowerReturn, Ty.isAgg, Bool.false_eq_true, if_false, this]
        cases s.isF <;> rfl
      have e2 : lowerResult (.scal s) so = [.mov (.var .res) (if s.isF then PL.fp 0 else PL.gp 0).opd s.size] := by
        simp only [lowerResult, hm', Ty.isAgg, Bool.false_eq_true, if_false, posOf, sizeOf]
        cases s.isF <;> simp [PL.opd]
      rw [e1, e2]; exact key
    | agg es =>
      have hb := hb hm' rfl
      rcases hfa_spec (.agg es) with hh | ⟨h1, h2, h3, h4⟩
      · have h16 : sizeOf (.agg es) ≤ 16 := by
          have := memRes_eq (.agg es)
          rw [hm'] at this
          simp only [memResIn, hh, beq_self_eq_true, Bool.true_and] at this
          have := of_decide_eq_false this.symm
          omega
        have e1 : lowerReturn (.agg es) = retOps (gpParts (.agg es) 0) := by
          simp only [lowerReturn, Ty.isAgg, hh, if_true, Nat.lt_irrefl, false_and, if_false, h16, retOps, gpParts, List.map_cons, PL.opd]
          split <;> rfl
        have e2 : lowerResult (.agg es) so = allocOp so (.agg es) .res :: resOps (gpParts (.agg es) 0) := by
          have : alignUp (sizeOf (.agg es)) 8 ≤ 64 := by rw [alignUp_eight]; omega
          have h16' : ¬ 16 < sizeOf (.agg es) := by omega
          simp [lowerResult, hm', Ty.isAgg, posOf, hh, h16', this, resOps, gpParts, PL.opd]
          split <;> rfl
        rw [e1, e2]
        refine regs_alloc_ok rfl ?_ ?_ ?_ ?_ h hb
        · unfold gpParts
          split <;> refine ⟨?_, ?_⟩ <;> simp [PL.isStk]
        · unfold gpParts
          split
          · intro p hp; simp only [List.mem_cons, List.not_mem_nil, or_false] at hp
            rcases hp with rfl | rfl <;> dsimp only <;> omega
          · intro p hp; simp only [List.mem_cons, List.not_mem_nil, or_false] at hp
            subst hp; dsimp only; omega
        · unfold gpParts
          split <;> simp
        · intro k (hk : k < sizeOf (.agg es))
          unfold gpParts
          by_cases hk8 : k < 8
          · exact ⟨_, List.mem_cons_self .., by dsimp only; omega, by dsimp only; omega⟩
          · rw [if_pos (by omega)]
            exact ⟨_, List.mem_cons_of_mem _ (List.mem_cons_self ..), by dsimp only; omega, by dsimp only; omega⟩
      · have e1 : lowerReturn (.agg es) = retOps (fpParts (.agg es) 0) := by
          simp [lowerReturn, Ty.isAgg, h2, h3, retOps, fpParts, List.map_map, Function.comp_def, PL.opd]
        have e2 : lowerResult (.agg es) so = allocOp so (.agg es) .res :: resOps (fpParts (.agg es) 0) := by
          have hn : (hfa (.agg es)).1 ≠ 0 := by omega
          have h8 : (hfa (.agg es)).1 ≤ 8 := by omega
          simp [lowerResult, hm', Ty.isAgg, posOf, hn, h8, resOps, fpParts, List.map_map, Function.comp_def, PL.opd]
        rw [e1, e2]
        have hmem : ∀ p ∈ fpParts (.agg es) 0, ∃ j, j < (hfa (.agg es)).1 ∧ p = (.fp (0 + j), j * (hfa (.agg es)).2, (hfa (.agg es)).2) := by
          intro p hp
          obtain ⟨j, hj, rfl⟩ := List.mem_map.1 hp
          exact ⟨j, List.mem_range.1 hj, rfl⟩
        refine regs_alloc_ok rfl ⟨?_, ?_⟩ ?_ ?_ ?_ h hb
        · intro p hp; obtain ⟨j, _, rfl⟩ := hmem p hp; rfl
        · unfold fpParts
          rw [List.pairwise_map]
          refine List.Pairwise.imp ?_ List.pairwise_lt_range
          intro a b hab; simp; omega
        · intro p hp
          obtain ⟨j, hj, rfl⟩ := hmem p hp
          dsimp only
          have : (j + 1) * (hfa (.agg es)).2 ≤ (hfa (.agg es)).1 * (hfa (.agg es)).2 := Nat.mul_le_mul_right _ hj
          rw [Nat.add_mul] at this; omega
        · unfold fpParts
          rw [List.pairwise_map]
          refine List.Pairwise.imp ?_ List.pairwise_lt_range
          intro a b hab
          dsimp only
          have : (a + 1) * (hfa (.agg es)).2 ≤ b * (hfa (.agg es)).2 := Nat.mul_le_mul_right _ hab
          rw [Nat.add_mul] at this; omega
        · intro k (hk : k < sizeOf (.agg es))
          have hfs : 0 < (hfa (.agg es)).2 := by omega
          refine ⟨(.fp (0 + k / (hfa (.agg es)).2), k / (hfa (.agg es)).2 * (hfa (.agg es)).2, (hfa (.agg es)).2), ?_, ?_, ?_⟩
          · refine List.mem_map.2 ⟨k / (hfa (.agg es)).2, List.mem_range.2 ?_, rfl⟩
            rw [Nat.div_lt_iff_lt_mul hfs]; omega
          · exact Nat.div_mul_le_self ..
          · have h1 := Nat.div_add_mod k (hfa (.agg es)).2
            rw [Nat.mul_comm] at h1
            have h2 := Nat.mod_lt k hfs
            dsimp only; omega

end Nature.Abi.Arm
