import Verif.Amd64.Checked
/-! Putting the pieces together: the decoder reads back what `encode` wrote. -/
namespace Nature.Amd64
open Spec

/-! ## Opcode bytes -/

theorem pOf_op16 (P : Nat) (R : Option Rex) : (pOf P R).op16 = pfxOp16 P := by
  unfold pOf pfxOp16 Pfx.legacy
  repeat' split
  all_goals simp_all
theorem pOf_rep (P : Nat) (R : Option Rex) : (pOf P R).rep = pfxRep P := by
  unfold pOf pfxRep Pfx.legacy
  repeat' split
  all_goals simp_all
theorem pOf_seg (P : Nat) (R : Option Rex) (h : P ∈ [0, 0x66, 0xf2, 0xf3]) : (pOf P R).seg = none := by
  simp at h
  rcases h with rfl | rfl | rfl | rfl <;> rfl

theorem decode_one (P : Nat) (R : Option Rex) (b : Nat) (rest : List Nat) (m : Mnem) (fs : List Form)
    (hP : P = 0 ∨ isLegacy P = true) (hb : isLegacy b = false) (hr : isRex b = false) (h0f : b ≠ 0x0f)
    (hl : lookup (pfxOp16 P) (R.getD {}).w (pfxRep P) false b (rest.headD 0 / 8 % 8) = some (m, fs)) :
    decode ((if P = 0 then [] else [P]) ++ (R.map rexByte).toList ++ [b] ++ rest)
      = operands (pOf P R) b rest m fs := by
  have : (if P = 0 then [] else [P]) ++ (R.map rexByte).toList ++ [b] ++ rest
      = (if P = 0 then [] else [P]) ++ (R.map rexByte).toList ++ b :: rest := by simp
  rw [this, decode, prefixes_enc P R b rest hP hb hr]
  simp only [h0f, if_false, pOf_op16, pOf_rep, pOf_w, hl, bind, Option.bind]

theorem decode_two (P : Nat) (R : Option Rex) (c : Nat) (rest : List Nat) (m : Mnem) (fs : List Form)
    (hP : P = 0 ∨ isLegacy P = true)
    (hl : lookup (pfxOp16 P) (R.getD {}).w (pfxRep P) true c 0 = some (m, fs)) :
    decode ((if P = 0 then [] else [P]) ++ (R.map rexByte).toList ++ [0x0f, c] ++ rest)
      = operands (pOf P R) c rest m fs := by
  have : (if P = 0 then [] else [P]) ++ (R.map rexByte).toList ++ [0x0f, c] ++ rest
      = (if P = 0 then [] else [P]) ++ (R.map rexByte).toList ++ 0x0f :: (c :: rest) := by simp
  rw [this, decode, prefixes_enc P R 0x0f (c :: rest) hP (by decide) (by decide)]
  simp only [if_true, pOf_op16, pOf_rep, pOf_w, hl, bind, Option.bind]

/-! ## Immediates -/

def immBytes : Operand → List Nat
  | .u8 v => [v]
  | .u16 v => leBytes 2 v
  | .u32 v | .uint v => leBytes 4 v
  | .u64 v => leBytes 8 v
  | _ => []

def immVal : Operand → Nat
  | .u8 v | .u16 v | .u32 v | .uint v | .u64 v => v
  | _ => 0

theorem imm_op (on sR : Bool) (f0 : Fmt) (o : Operand) (w : Nat) (f : Form)
    (h : formOk sR .imm o.key w f = true) (ok : OperandOk o) :
    fillOp on sR f0 .imm o = some { f0 with imms := immBytes o } ∧
    (∀ t, le f.immSize (immBytes o ++ t) = some (immVal o, t)) ∧
    (∀ p opc reg rm, argOf p opc reg rm (immVal o) f = some (argAt w o)) ∧ f.usesModrm = false := by
  cases o with
  | reg r => by_cases h' : r.float <;> cases f <;> simp [formOk, Operand.key, h'] at h
  | ind r s => cases f <;> simp [formOk, Operand.key] at h
  | disp r d s => cases f <;> simp [formOk, Operand.key] at h
  | sib b i s d z => cases f <;> simp [formOk, Operand.key] at h
  | rip d s => cases f <;> simp [formOk, Operand.key] at h
  | seg s d => cases f <;> simp [formOk, Operand.key] at h
  | u8 v =>
    cases f <;> simp [formOk, Operand.key] at h
    obtain ⟨rfl, rfl⟩ := h
    refine ⟨rfl, fun t => ?_, fun _ _ _ _ => rfl, rfl⟩
    simp [Form.immSize, le, immBytes, immVal]
  | u16 v =>
    cases f <;> simp [formOk, Operand.key] at h
    obtain ⟨rfl, rfl⟩ := h
    exact ⟨rfl, fun t => le_leBytes 2 v t (by simpa [OperandOk] using ok), fun _ _ _ _ => rfl, rfl⟩
  | u32 v =>
    cases f <;> simp [formOk, Operand.key] at h
    obtain ⟨rfl, rfl⟩ := h
    exact ⟨rfl, fun t => le_leBytes 4 v t (by simpa [OperandOk] using ok), fun _ _ _ _ => rfl, rfl⟩
  | uint v =>
    cases f <;> simp [formOk, Operand.key] at h
    obtain ⟨rfl, rfl⟩ := h
    exact ⟨rfl, fun t => le_leBytes 4 v t (by simpa [OperandOk] using ok), fun _ _ _ _ => rfl, rfl⟩
  | u64 v =>
    cases f <;> simp [formOk, Operand.key] at h
    obtain ⟨rfl, rfl⟩ := h
    exact ⟨rfl, fun t => le_leBytes 8 v t (by simpa [OperandOk] using ok), fun _ _ _ _ => rfl, rfl⟩

/-! ## Registers and memory -/

/-- Byte registers need the right presence or absence of REX. -/
def RexFits (p : Pfx) (r : Reg) : Prop := (r.high = true → p.rex = none) ∧ (has64 r = true → p.rex ≠ none)

theorem gpr_eq (p : Pfx) (s : Nat) (r : Reg) (ok : RegOk r) (hf : r.float = false) (fit : RexFits p r)
    (hs : (s == 1) = (r.size == 1)) : gpr p s r.idx = argAt s (.reg r) := by
  simp only [argAt, hf, gpr]
  by_cases hh : r.high = true
  · have := ok.2 hh
    have h1 : s = 1 := by
      have : (s == 1) = true := by rw [hs]; simp [this.2.1]
      simpa using this
    simp [hh, h1, fit.1 hh, this.2.2]
  · simp only [hh]
    rw [if_neg]
    · rfl
    · rintro ⟨h1, h2, h3, h4⟩
      have hsz : r.size = 1 := by
        have : (r.size == 1) = true := by rw [← hs]; simp [h1]
        simpa using this
      exact fit.2 (by simp [has64, hsz, hf, hh, h3]) h2

def segOf : Operand → Option Seg
  | .seg s _ => some s
  | _ => none

/-- An `rm` operand. -/
theorem rm_op (sR : Bool) (o : Operand) (w : Nat) (f : Form) (h : formOk sR .rm o.key w f = true)
    (ok : OperandOk o) (p : Pfx) (opc reg imm : Nat) (fit : ∀ r, o = .reg r → RexFits p r)
    (hseg : p.seg = segOf o) :
    argOf p opc reg (rmOf o) imm f = some (argAt w o) ∧ f.immSize = 0 ∧ f.usesModrm = true ∧ isRm o = true := by
  cases o with
  | reg r =>
    by_cases hf : r.float = true
    · cases f <;> simp [formOk, Operand.key, hf] at h
      simp [argOf, rmArg, rmOf, argAt, hf, Form.immSize, Form.usesModrm, isRm, Operand.key]
    · have hf' : r.float = false := by simpa using hf
      cases f <;> simp [formOk, Operand.key, hf'] at h
      rename_i s
      obtain ⟨rfl, hs⟩ := h
      have := gpr_eq p s r ok hf' (fit r rfl) (by rw [hs])
      simp [argOf, rmArg, rmOf, this, Form.immSize, Form.usesModrm, isRm, Operand.key, hf']
  | ind r s =>
    cases f <;> simp [formOk, Operand.key] at h <;> subst h <;>
      simp [segOf] at hseg <;> simp [argOf, rmArg, rmOf, argAt, hseg, Form.immSize, Form.usesModrm, isRm, Operand.key]
  | disp r d s =>
    cases f <;> simp [formOk, Operand.key] at h <;> subst h <;>
      simp [segOf] at hseg <;> simp [argOf, rmArg, rmOf, argAt, hseg, Form.immSize, Form.usesModrm, isRm, Operand.key]
  | sib b i sc d s =>
    cases f <;> simp [formOk, Operand.key] at h <;> subst h <;>
      simp [segOf] at hseg <;> simp [argOf, rmArg, rmOf, argAt, hseg, Form.immSize, Form.usesModrm, isRm, Operand.key] <;>
      cases b <;> rfl
  | rip d s =>
    cases f <;> simp [formOk, Operand.key] at h <;> subst h <;>
      simp [segOf] at hseg <;> simp [argOf, rmArg, rmOf, argAt, hseg, Form.immSize, Form.usesModrm, isRm, Operand.key]
  | seg s d =>
    cases f <;> simp [formOk, Operand.key] at h <;> subst h <;>
      simp [segOf] at hseg <;> simp [argOf, rmArg, rmOf, argAt, hseg, Form.immSize, Form.usesModrm, isRm, Operand.key]
  | u8 v => cases f <;> simp [formOk, Operand.key] at h
  | u16 v => cases f <;> simp [formOk, Operand.key] at h
  | u32 v => cases f <;> simp [formOk, Operand.key] at h
  | u64 v => cases f <;> simp [formOk, Operand.key] at h
  | uint v => cases f <;> simp [formOk, Operand.key] at h

/-- A register operand in ModRM.reg (or the count register of a shift). -/
theorem reg_op (sR : Bool) (o : Operand) (w : Nat) (f : Form) (h : formOk sR .reg o.key w f = true)
    (ok : OperandOk o) : ∃ r, o = .reg r ∧ f.immSize = 0 ∧
      (sR = true → ∀ p opc rm imm, RexFits p r → argOf p opc r.idx rm imm f = some (argAt w o)) ∧
      (sR = false → (r.idx = 1 ∧ r.high = false ∧ r.float = false) → ∀ p opc reg rm imm, argOf p opc reg rm imm f = some (argAt w o)) := by
  cases o with
  | reg r =>
    refine ⟨r, rfl, ?_⟩
    by_cases hf : r.float = true
    · cases f <;> simp [formOk, Operand.key, hf] at h
      subst h
      simp [argOf, argAt, hf, Form.immSize]
    · have hf' : r.float = false := by simpa using hf
      cases f <;> simp [formOk, Operand.key, hf'] at h
      · rename_i s
        obtain ⟨⟨rfl, rfl⟩, hs⟩ := h
        refine ⟨rfl, fun _ p opc rm imm fit => ?_, by simp⟩
        have := gpr_eq p s r ok hf' fit (by rw [hs])
        simp [argOf, this]
      · obtain ⟨⟨rfl, hs⟩, rfl⟩ := h
        refine ⟨rfl, by simp, fun _ hcl _ _ _ _ _ => ?_⟩
        simp [argOf, argAt, hf', hcl.1, hcl.2.1]
  | ind r s => cases f <;> simp [formOk, Operand.key] at h
  | disp r d s => cases f <;> simp [formOk, Operand.key] at h
  | sib b i s d z => cases f <;> simp [formOk, Operand.key] at h
  | rip d s => cases f <;> simp [formOk, Operand.key] at h
  | seg s d => cases f <;> simp [formOk, Operand.key] at h
  | u8 v => cases f <;> simp [formOk, Operand.key] at h
  | u16 v => cases f <;> simp [formOk, Operand.key] at h
  | u32 v => cases f <;> simp [formOk, Operand.key] at h
  | u64 v => cases f <;> simp [formOk, Operand.key] at h
  | uint v => cases f <;> simp [formOk, Operand.key] at h

/-- A register operand in the opcode. -/
theorem plus_op (sR : Bool) (o : Operand) (w : Nat) (f : Form) (h : formOk sR .plus o.key w f = true)
    (ok : OperandOk o) : ∃ r, o = .reg r ∧ f.immSize = 0 ∧ f.usesModrm = false ∧
      (∀ p opc reg rm imm, RexFits p r → p.b + opc % 8 = r.idx → argOf p opc reg rm imm f = some (argAt w o)) := by
  cases o with
  | reg r =>
    refine ⟨r, rfl, ?_⟩
    by_cases hf : r.float = true
    · cases f <;> simp [formOk, Operand.key, hf] at h
    · have hf' : r.float = false := by simpa using hf
      cases f <;> simp [formOk, Operand.key, hf'] at h
      rename_i s
      obtain ⟨rfl, hs⟩ := h
      refine ⟨rfl, rfl, fun p opc reg rm imm fit hn => ?_⟩
      have := gpr_eq p s r ok hf' fit (by rw [hs])
      simp [argOf, hn, this]
  | ind r s => cases f <;> simp [formOk, Operand.key] at h
  | disp r d s => cases f <;> simp [formOk, Operand.key] at h
  | sib b i s d z => cases f <;> simp [formOk, Operand.key] at h
  | rip d s => cases f <;> simp [formOk, Operand.key] at h
  | seg s d => cases f <;> simp [formOk, Operand.key] at h
  | u8 v => cases f <;> simp [formOk, Operand.key] at h
  | u16 v => cases f <;> simp [formOk, Operand.key] at h
  | u32 v => cases f <;> simp [formOk, Operand.key] at h
  | u64 v => cases f <;> simp [formOk, Operand.key] at h
  | uint v => cases f <;> simp [formOk, Operand.key] at h

end Nature.Amd64
