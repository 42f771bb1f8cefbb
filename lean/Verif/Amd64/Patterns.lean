import Verif.Amd64.Encode
/-! The nine operand patterns of the table. -/
namespace Nature.Amd64
open Spec

/-! ## The state before the operands -/

def start (row : Row) (on : Bool) : Fmt :=
  { pfx := row.pfx, opc := row.opc, modrm := row.base, rex := if on then some { w := row.w } else none }

def Inst.on (i : Inst) (row : Row) : Bool := row.hasRex || i.needRex

theorem fill_eq (row : Row) (i : Inst) (h : extsOk row = true) :
    fill row i = fillOps (i.on row) row.isSlashR (start row (i.on row)) row.ops i.ops := by
  simp only [extsOk, Bool.and_eq_true, decide_eq_true_eq] at h
  simp only [fill, h.1.1.1.1, Row.isSlashR, Inst.on]
  congr 1
  cases hh : row.hasRex
  · have hw : row.w = false := by
      simp only [Row.hasRex, Bool.or_eq_false_iff] at hh
      exact hh.2
    cases hn : i.needRex <;> simp [start, hw, buildExt]
  · simp [start]

/-! ## Instructions with a ModRM byte -/

def withRm (row : Row) (on : Bool) (o : Operand) (q : RmPart) (G : Nat) (rb : Bool) (imms : List Nat) : Fmt :=
  { pfx := segPfx row.pfx o, opc := row.opc
    modrm := some { mod := q.mod, reg := G, rm := q.rm }, sib := q.sib, disps := q.disps, imms := imms
    rex := if on then some { w := row.w, r := rb, x := q.x, b := q.b } else none }

/-- The REX of such an instruction. -/
def rexOf (row : Row) (on : Bool) (rb x b : Bool) : Option Rex :=
  if on then some { w := row.w, r := rb, x := x, b := b } else none

theorem rexOf_bits (row : Row) (on rb x b : Bool) (hw : on = false → row.w = false)
    (hon : on = false → rb = false ∧ x = false ∧ b = false) :
    ((rexOf row on rb x b).getD {}) = { w := row.w, r := rb, x := x, b := b } := by
  cases on
  · have h1 := hw rfl; have h2 := hon rfl
    simp [rexOf, h1, h2]
  · simp [rexOf]

theorem segPfx_table (P : Nat) (o : Operand) (hp : P ∈ [0, 0x66, 0xf2, 0xf3]) (ok : OperandOk o)
    (hs : o.key.1 = .seg → P = 0) (R : Option Rex) :
    pfxOp16 (segPfx P o) = pfxOp16 P ∧ pfxRep (segPfx P o) = pfxRep P ∧
    (segPfx P o = 0 ∨ isLegacy (segPfx P o) = true) ∧ (pOf (segPfx P o) R).seg = segOf o := by
  have hl : P = 0 ∨ isLegacy P = true := by
    simp at hp; rcases hp with rfl | rfl | rfl | rfl <;> decide
  cases o with
  | seg s d =>
    have h0 : P = 0 := hs rfl
    subst h0
    have hne : s ≠ .other := ok.1
    cases s with
    | fs => exact ⟨rfl, rfl, Or.inr rfl, rfl⟩
    | gs => exact ⟨rfl, rfl, Or.inr rfl, rfl⟩
    | other => exact absurd rfl hne
  | _ => exact ⟨rfl, rfl, hl, by rw [show segPfx P _ = P from rfl]; exact pOf_seg P R hp⟩

theorem seen_at {row : Row} {two : Bool} {b : Nat} {m : Mnem × List Form} (h : seen row two b m = true)
    (k G : Nat) (hk : k < 8) (hG : G < 8) (hk' : k = 0 ∨ (row.ops.map (·.2)).contains .plus = true)
    (hG' : G = row.digit ∨ row.isSlashR = true ∨ (row.ops.map (·.2)).contains .rm = false) :
    lookup (pfxOp16 row.pfx) row.w (pfxRep row.pfx) two (b + k) G = some m ∧
      isLegacy (b + k) = false ∧ isRex (b + k) = false := by
  have h1 := List.all_eq_true.1 h k (by simpa using hk)
  have h2 := List.all_eq_true.1 h1 G (by simpa using hG)
  have e1 : (k != 0 && !(row.ops.map (·.2)).contains .plus) = false := by
    rcases hk' with h | h
    · simp [h]
    · rw [h]; simp
  have e2 : (G != row.digit && !row.isSlashR && (row.ops.map (·.2)).contains .rm) = false := by
    rcases hG' with h | h | h
    · simp [h]
    · rw [h]; simp
    · rw [h]; simp
  rw [e1, e2] at h2
  simp only [Bool.or_false, Bool.false_or, Bool.and_eq_true, decide_eq_true_eq, Bool.not_eq_true'] at h2
  exact ⟨h2.1.1, h2.1.2, h2.2⟩

theorem decode_withRm (row : Row) (m : Mnem) (fs : List Form) (hopc : opcOk row (m, fs) = true)
    (hpfx : row.pfx ∈ [0, 0x66, 0xf2, 0xf3]) (on : Bool) (hw : on = false → row.w = false)
    (o : Operand) (q : RmPart) (hq : rmPart o = some q) (ok : OperandOk o) (good : goodAddr o = true)
    (hseg : o.key.1 = .seg → row.pfx = 0)
    (G : Nat) (rb : Bool) (imms : List Nat) (v : Nat) (hG : G < 8) (hG' : G = row.digit ∨ row.isSlashR = true)
    (hon : on = false → rb = false ∧ q.x = false ∧ q.b = false) (huse : fs.any Form.usesModrm = true)
    (t : List Nat) (himm : le ((fs.map Form.immSize).sum) (imms ++ t) = some (v, t)) (args : List Arg)
    (hargs : ∀ opc, argsOf (pOf (segPfx row.pfx o) (rexOf row on rb q.x q.b)) opc
      ((if rb then 8 else 0) + G) (rmOf o) v fs = some args) :
    decode ((withRm row on o q G rb imms).bytes ++ t) = some (⟨m, args⟩, t) := by
  have hbits := rexOf_bits row on rb q.x q.b hw hon
  have hst := segPfx_table row.pfx o hpfx ok hseg (rexOf row on rb q.x q.b)
  generalize hP : segPfx row.pfx o = P at *
  generalize hR : rexOf row on rb q.x q.b = R at *
  have hRw : (R.getD {}).w = row.w := by rw [hbits]
  have hmod : Spec.modrm (pOf P R) (modrmByte { mod := q.mod, reg := G, rm := q.rm } ::
      ((q.sib.map sibByte).toList ++ q.disps ++ (imms ++ t)))
        = some ((if rb then 8 else 0) + G, rmOf o, imms ++ t) := by
    have := modrm_rm o q hq ok good (pOf P R) (by rw [pOf_b, hbits]) (by rw [pOf_x, hbits]) G hG (imms ++ t)
    rw [this, pOf_r, hbits]
  have hops : ∀ opc, operands (pOf P R) opc (modrmByte { mod := q.mod, reg := G, rm := q.rm } ::
      ((q.sib.map sibByte).toList ++ q.disps ++ (imms ++ t))) m fs = some (⟨m, args⟩, t) := by
    intro opc
    simp only [operands, huse, if_true, hmod, himm, hargs, bind, Option.bind, pure]
  have hbytes : ∀ B : List Nat, row.opc.takeWhile (fun b => decide (0 < b)) = B →
      (withRm row on o q G rb imms).bytes ++ t =
      (if P = 0 then [] else [P]) ++ (R.map rexByte).toList ++ B ++
      (modrmByte { mod := q.mod, reg := G, rm := q.rm } ::
        ((q.sib.map sibByte).toList ++ q.disps ++ (imms ++ t))) := by
    intro B hB
    simp only [Fmt.bytes, withRm, hP, hB, Option.map_some, Option.toList_some]
    rw [show (if on = true then some { w := row.w, r := rb, x := q.x, b := q.b } else none) = R from hR]
    simp only [List.append_assoc, List.cons_append, List.nil_append]
  have hd : modrmByte { mod := q.mod, reg := G, rm := q.rm } / 8 % 8 = G := by
    simp only [modrmByte]
    omega
  unfold opcOk at hopc
  split at hopc
  · rename_i b hb
    simp only [Bool.and_eq_true, decide_eq_true_eq] at hopc
    have hs := seen_at hopc.1.2 0 G (by decide) hG (Or.inl rfl) (hG'.imp id Or.inl)
    simp only [Nat.add_zero] at hs
    rw [hbytes [b] (by rw [hb]; simp [hopc.1.1.1])]
    rw [decode_one P R b _ m fs hst.2.2.1 hs.2.1 hs.2.2 hopc.1.1.2, hops]
    rw [hst.1, hst.2.1, hRw, List.headD_cons, hd]; exact hs.1
  · rename_i c hc
    simp only [Bool.and_eq_true, decide_eq_true_eq] at hopc
    have hs := seen_at hopc.2 0 G (by decide) hG (Or.inl rfl) (hG'.imp id Or.inl)
    simp only [Nat.add_zero] at hs
    rw [hbytes [0x0f, c] (by rw [hc]; simp [hopc.1.1])]
    rw [decode_two P R c _ m fs hst.2.2.1, hops]
    rw [hst.1, hst.2.1, hRw]; exact hs.1
  · simp at hopc

/-! ## Instructions without one -/

def plain (row : Row) (on : Bool) (k : Nat) (b : Bool) (imms : List Nat) : Fmt :=
  { pfx := row.pfx, imms := imms
    opc := match row.opc with
      | o :: os => (o + k) :: os
      | [] => []
    rex := if on then some { w := row.w, b := b } else none }

theorem decode_plain (row : Row) (m : Mnem) (fs : List Form) (hopc : opcOk row (m, fs) = true)
    (hpfx : row.pfx ∈ [0, 0x66, 0xf2, 0xf3]) (on : Bool) (hw : on = false → row.w = false)
    (hrm : (row.ops.map (·.2)).contains .rm = false) (k : Nat) (hk : k < 8)
    (hk' : k = 0 ∨ (row.ops.map (·.2)).contains .plus = true) (b : Bool) (imms : List Nat) (v : Nat)
    (hon : on = false → b = false) (huse : fs.any Form.usesModrm = false)
    (t : List Nat) (himm : le ((fs.map Form.immSize).sum) (imms ++ t) = some (v, t)) (args : List Arg)
    (hargs : ∀ b0, (row.opc = [b0] ∨ (row.ops.map (·.2)).contains .plus = false) → argsOf (pOf row.pfx (rexOf row on false false b)) (b0 + k) 0 (.direct 0) v fs
      = some args) :
    decode ((plain row on k b imms).bytes ++ t) = some (⟨m, args⟩, t) := by
  have hbits := rexOf_bits row on false false b hw (fun h => ⟨rfl, rfl, hon h⟩)
  have hl : row.pfx = 0 ∨ isLegacy row.pfx = true := by
    simp at hpfx; rcases hpfx with h | h | h | h <;> simp [h] <;> decide
  generalize hR : rexOf row on false false b = R at *
  have hRw : (R.getD {}).w = row.w := by rw [hbits]
  have hops : ∀ b0, (row.opc = [b0] ∨ (row.ops.map (·.2)).contains .plus = false) → operands (pOf row.pfx R) (b0 + k) (imms ++ t) m fs = some (⟨m, args⟩, t) := by
    intro b0 h
    simp only [operands, huse, himm, hargs b0 h, bind, Option.bind, pure]
    rfl
  have hbytes : ∀ B : List Nat, (plain row on k b imms).opc.takeWhile (fun b => decide (0 < b)) = B →
      (plain row on k b imms).bytes ++ t =
      (if row.pfx = 0 then [] else [row.pfx]) ++ (R.map rexByte).toList ++ B ++ (imms ++ t) := by
    intro B hB
    simp only [Fmt.bytes, hB]
    simp only [plain]
    rw [show (if on = true then some { w := row.w, b := b } else none) = R from hR]
    simp
    congr
  unfold opcOk at hopc
  split at hopc
  · rename_i b0 hb
    simp only [Bool.and_eq_true, decide_eq_true_eq] at hopc
    have hs := fun g hg => seen_at hopc.1.2 k g hk hg hk' (Or.inr (Or.inr hrm))
    rw [hbytes [b0 + k] (by
      have := hopc.1.1.1
      simp only [plain, hb]
      rw [List.takeWhile_cons_of_pos (by rw [decide_eq_true_eq]; omega)]; rfl)]
    rw [decode_one row.pfx R (b0 + k) _ m fs hl (hs 0 (by decide)).2.1 (hs 0 (by decide)).2.2 ?_, hops b0 (Or.inl hb)]
    · rw [hRw]; exact (hs _ (Nat.mod_lt _ (by decide))).1
    · rcases hk' with h | h
      · subst h; simpa using hopc.1.1.2
      · have := hopc.2; rw [h] at this; simp at this; omega
  · rename_i c hc
    simp only [Bool.and_eq_true, decide_eq_true_eq] at hopc
    have hk0 : k = 0 := by
      rcases hk' with h | h
      · exact h
      · have := hopc.1.2; rw [h] at this; simp at this
    subst hk0
    have hs := seen_at hopc.2 0 0 hk (by decide) hk' (Or.inr (Or.inr hrm))
    simp only [Nat.add_zero] at hs
    rw [hbytes [0x0f, c] (by simp [plain, hc, hopc.1.1])]
    have := hops c (Or.inr (by simpa using hopc.1.2))
    simp only [Nat.add_zero] at this
    rw [decode_two row.pfx R c _ m fs hl, this]
    rw [hRw]; exact hs.1
  · simp at hopc

/-! ## From the row to the bytes -/

theorem fillOps_cons (on sR : Bool) (f f' : Fmt) (t : OpTy) (e : Enc) (es : List (OpTy × Enc)) (o : Operand)
    (os : List Operand) (h : fillOps on sR f ((t, e) :: es) (o :: os) = some f') :
    ∃ g, fillOp on sR f e o = some g ∧ fillOps on sR g es os = some f' := by
  simp only [fillOps, Option.bind_eq_some_iff] at h
  exact h

/-- `fillOp` for a register in ModRM.reg. -/
theorem fillOp_reg (on sR : Bool) (f f' : Fmt) (r : Reg) (m : Modrm) (hm : f.modrm = some m)
    (h : fillOp on sR f .reg (.reg r) = some f') :
    f' = if sR then { f with modrm := some { m with reg := r.idx % 8 },
                             rex := if on then f.rex.map fun x => { x with r := decide (7 < r.idx) } else f.rex }
      else f := by
  cases sR <;> cases on <;> simp [fillOp, hm, Fmt.setModrm, Fmt.setRex] at h <;> subst h <;> rfl

/-- What is known of a request and the row selected for it. -/
structure Setup (row : Row) (i : Inst) (m : Mnem) (fs : List Form) : Prop where
  forms : formsOk row.isSlashR row.ops (i.ops.map Operand.key) (widths i.name (i.ops.map Operand.key)) fs = true
  opc : opcOk row (m, fs) = true
  exts : extsOk row = true
  pfx : row.pfx ∈ [0, 0x66, 0xf2, 0xf3]
  seg : ∀ o ∈ i.ops, o.key.1 = .seg → row.pfx = 0
  use : fs.any Form.usesModrm = (row.ops.map (·.2)).contains .rm
  ok : ∀ o ∈ i.ops, OperandOk o
  good : ∀ o ∈ i.ops, goodAddr o = true
  high : ∀ r ∈ i.regs, r.high = true → i.on row = false
  cl : row.ops.map (·.2) = [.rm, .reg] → row.isSlashR = false → ∀ o1 r, i.ops = [o1, .reg r] →
    r.idx = 1 ∧ r.high = false ∧ r.float = false
  regs : (row.ops.map (·.2)).contains .reg = true → row.isSlashR = true ∨ row.ops.map (·.2) = [.rm, .reg]

theorem Setup.w {row : Row} {i : Inst} : i.on row = false → row.w = false := by
  intro h
  simp only [Inst.on, Row.hasRex, Bool.or_eq_false_iff] at h
  exact h.1.2

theorem off_small {row : Row} {i : Inst} (h : i.on row = false) {r : Reg} (hr : r ∈ i.regs) : has64 r = false := by
  simp only [Inst.on, Bool.or_eq_false_iff, Inst.needRex, List.any_eq_false] at h
  simpa using h.2 r hr

theorem on_of_has64 {row : Row} {i : Inst} {r : Reg} (hr : r ∈ i.regs) (h : has64 r = true) : i.on row = true := by
  cases ho : i.on row
  · rw [off_small ho hr] at h; cases h
  · rfl

theorem small_idx {r : Reg} (h : has64 r = false) : r.idx < 8 := by
  simp only [has64, Bool.or_eq_false_iff, decide_eq_false_iff_not] at h
  omega

theorem Setup.fits {row : Row} {i : Inst} {m : Mnem} {fs : List Form} (S : Setup row i m fs) {r : Reg}
    (hr : r ∈ i.regs) (P : Nat) (rb x b : Bool) : RexFits (pOf P (rexOf row (i.on row) rb x b)) r := by
  constructor
  · intro h
    rw [pOf_rex, S.high r hr h]; rfl
  · intro h
    rw [pOf_rex, on_of_has64 hr h]; simp [rexOf]

/-- The REX bits of an `rm` operand are off when there is no REX. -/
theorem part_off {row : Row} {i : Inst} (h : i.on row = false) {o : Operand} (ho : o ∈ i.ops) {q : RmPart}
    (hq : rmPart o = some q) : q.x = false ∧ q.b = false := by
  have hr : ∀ r ∈ o.regs, r.idx < 8 := fun r hr =>
    small_idx (off_small h (List.mem_flatMap.2 ⟨o, ho, hr⟩))
  cases o with
  | reg r =>
    simp only [rmPart, Option.some.injEq] at hq; subst hq
    have := hr r (by simp [Operand.regs]); simp; omega
  | ind r s =>
    simp only [rmPart, Option.some.injEq] at hq; subst hq
    have := hr r (by simp [Operand.regs]); simp; omega
  | disp r d s =>
    simp only [rmPart, Option.some.injEq] at hq; subst hq
    have := hr r (by simp [Operand.regs]); simp; omega
  | rip d s => simp only [rmPart, Option.some.injEq] at hq; subst hq; exact ⟨rfl, rfl⟩
  | seg d s => simp only [rmPart, Option.some.injEq] at hq; subst hq; exact ⟨rfl, rfl⟩
  | sib base index sc d s =>
    simp only [rmPart, bind, Option.bind] at hq
    have hx : ¬ 7 < ixOf index := by
      cases index with
      | none => simp [ixOf]
      | some r => have := hr r (by simp [Operand.regs]); simp only [ixOf]; omega
    cases hsc : scaleEnc sc with
    | none => simp [hsc] at hq
    | some e =>
      simp only [hsc] at hq
      cases base with
      | none => simp only [Option.some.injEq] at hq; subst hq; simp; omega
      | some b =>
        have := hr b (by simp [Operand.regs])
        simp only [Option.some.injEq] at hq; subst hq; simp; omega
  | u8 v => simp [rmPart] at hq
  | u16 v => simp [rmPart] at hq
  | u32 v => simp [rmPart] at hq
  | u64 v => simp [rmPart] at hq
  | uint v => simp [rmPart] at hq

end Nature.Amd64
