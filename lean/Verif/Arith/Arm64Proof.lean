import Verif.Arith.Wide
import Verif.Arith.Regs
import Verif.Arith.Arm64
/-
arm64: each operation is right.
-/
namespace Nature.Arith.Arm64

def exec (o : Lir) (s : St) : Option St := run (select o) s

theorem run_append (xs ys : List I) (s : St) : run (xs ++ ys) s = (run xs s).bind (run ys) := by
  induction xs generalizing s with
  | nil => rfl
  | cons x xs ih =>
    simp only [List.cons_append, run]
    cases step x s with
    | none => rfl
    | some s' => exact ih s'

theorem run_code (ls : List Lir) (s : St) : run (code ls) s = execAll exec ls s := by
  induction ls generalizing s with
  | nil => rfl
  | cons l ls ih =>
    have : code (l :: ls) = select l ++ code ls := rfl
    rw [this, run_append]
    simp only [execAll, exec]
    cases run (select l) s with
    | none => rfl
    | some s' => exact ih s'

theorem rd_ne {r : R} (h : r ≠ zr) (s : St) (N : Nat) : rd s N r = (s.regs r).setWidth N := if_neg h

theorem kept_ne {n : Nat} {r : R} (h : Kept n r) : r ≠ zr := by
  intro e; subst e; exact h

theorem rd_kept {n : Nat} {r : R} (h : Kept n r) (s : St) (N : Nat) : rd s N r = (s.regs r).setWidth N := rd_ne (kept_ne h) s N

theorem x16_ne : x16 ≠ zr := by simp [x16, zr]

theorem rd_x16 (s : St) (N : Nat) : rd s N x16 = (s.regs x16).setWidth N := rd_ne x16_ne s N

theorem rd_zr (s : St) (N : Nat) : rd s N zr = 0 := if_pos rfl

theorem native_cases (w : Width) : (native w = 32 ∧ w ≠ .w64) ∨ (native w = 64 ∧ w = .w64) := by
  cases w <;> simp [native]

theorem native_le (w : Width) : w.bits ≤ native w ∧ native w ≤ 64 := by cases w <;> decide

theorem native_pos (w : Width) : 0 < native w := by cases w <;> decide

/-! ### Literals -/

theorem movk_val (r : BitVec 64) (c : BitVec 16) {sh : Nat} (hs : sh + 16 ≤ 64) (hr : r.toNat < 2 ^ sh) :
    ((r &&& ~~~(BitVec.ofNat 64 0xFFFF <<< sh)) ||| (c.setWidth 64 <<< sh)).toNat = r.toNat + c.toNat * 2 ^ sh := by
  have hc := c.isLt
  have hlt : c.toNat * 2 ^ sh < 2 ^ 64 := by
    have : c.toNat * 2 ^ sh < 2 ^ 16 * 2 ^ sh := Nat.mul_lt_mul_of_pos_right hc (Nat.pow_pos (by decide))
    rw [← Nat.pow_add] at this
    exact Nat.lt_of_lt_of_le this (Nat.pow_le_pow_right (by decide) (by omega))
  have e1 : r &&& ~~~(BitVec.ofNat 64 0xFFFF <<< sh) = r := by
    apply BitVec.eq_of_getLsbD_eq
    intro i hi
    simp only [BitVec.getLsbD_and, BitVec.getLsbD_not, BitVec.getLsbD_shiftLeft, hi, decide_true, Bool.true_and]
    by_cases h : i < sh
    · simp [h]
    · have : r.getLsbD i = false := by
        rw [BitVec.getLsbD]
        exact Nat.testBit_lt_two_pow (Nat.lt_of_lt_of_le hr (Nat.pow_le_pow_right (by decide) (by omega)))
      rw [this]; rfl
  have e2 : (c.setWidth 64 <<< sh).toNat = c.toNat * 2 ^ sh := by
    rw [BitVec.toNat_shiftLeft, BitVec.toNat_setWidth, Nat.mod_eq_of_lt (a := c.toNat) (by omega), Nat.shiftLeft_eq, Nat.mod_eq_of_lt hlt]
  rw [e1, BitVec.toNat_or, e2, Nat.or_comm, ← Nat.shiftLeft_eq, ← Nat.shiftLeft_add_eq_or_of_lt hr, Nat.add_comm]

/-- One of the further parts of a literal. -/
theorem part_ok {d : R} (hd : d ≠ zr) (v : BitVec 64) {sh : Nat} (hs : sh + 16 ≤ 64) (s : St) (hr : (s.regs d).toNat = v.toNat % 2 ^ sh) :
    ∃ s', run (if ((v >>> sh).setWidth 16 : BitVec 16) = 0 then [] else [.movk 64 d ((v >>> sh).setWidth 16) sh]) s = some s' ∧
      (s'.regs d).toNat = v.toNat % 2 ^ (sh + 16) ∧ ∀ r, r ≠ d → s'.regs r = s.regs r := by
  have hp : 0 < 2 ^ sh := Nat.pow_pos (by decide)
  have hc : ((v >>> sh).setWidth 16 : BitVec 16).toNat = v.toNat / 2 ^ sh % 2 ^ 16 := by
    rw [BitVec.toNat_setWidth, BitVec.toNat_ushiftRight, Nat.shiftRight_eq_div_pow]
  have hsum : v.toNat % 2 ^ (sh + 16) = v.toNat % 2 ^ sh + (v.toNat / 2 ^ sh % 2 ^ 16) * 2 ^ sh := by
    rw [Nat.pow_add, Nat.mod_mul, Nat.mul_comm (2 ^ sh)]
  split
  · rename_i h
    refine ⟨s, rfl, ?_, fun _ _ => rfl⟩
    have h0 : v.toNat / 2 ^ sh % 2 ^ 16 = 0 := by rw [← hc, h]; rfl
    rw [hsum, h0, hr, Nat.zero_mul, Nat.add_zero]
  · refine ⟨_, rfl, ?_, fun r hr => upd_ne hr⟩
    show (upd s.regs d _ d).toNat = _
    rw [upd_self, BitVec.setWidth_eq, rd_ne hd, BitVec.setWidth_eq, movk_val _ _ hs (by rw [hr]; exact Nat.mod_lt _ hp), hr, hc, hsum]

theorem movImm_ok {N : Nat} (hN : N = 32 ∨ N = 64) {d : R} (hd : d ≠ zr) (v : BitVec 64) (s : St) :
    ∃ s', run (movImm N d v) s = some s' ∧ (s'.regs d).setWidth N = v.setWidth N ∧ ∀ r, r ≠ d → s'.regs r = s.regs r := by
  have hN' : 16 ≤ N ∧ N ≤ 64 := by omega
  unfold movImm
  split
  · rename_i h
    have hp : (2 : Nat) ^ 16 ≤ 2 ^ N := Nat.pow_le_pow_right (by decide) hN'.1
    have key : ∀ z : BitVec N, z = v.setWidth N → ((z.setWidth 64).setWidth N = v.setWidth N) := by
      intro z hz
      rw [setWidth_setWidth hN'.2, BitVec.setWidth_eq, hz]
    split
    · rename_i h0
      refine ⟨_, rfl, ?_, fun r hr => upd_ne hr⟩
      show (upd s.regs d _ d).setWidth N = _
      rw [upd_self]
      apply key
      apply BitVec.eq_of_toNat_eq
      have : v.toInt = v.toNat := BitVec.toInt_eq_toNat_of_msb (by
        rw [BitVec.msb_eq_toInt]; exact decide_eq_false (by omega))
      rw [BitVec.toNat_setWidth, BitVec.toNat_setWidth, BitVec.toNat_setWidth, Nat.mod_eq_of_lt (a := v.toNat) (by omega)]
    · rename_i h0
      refine ⟨_, rfl, ?_, fun r hr => upd_ne hr⟩
      show (upd s.regs d _ d).setWidth N = _
      rw [upd_self]
      apply key
      have hn : (~~~v).toNat < 2 ^ 16 := by
        rw [BitVec.toNat_not]
        have := BitVec.toInt_eq_toNat_cond v
        split at this <;> omega
      rw [show ((~~~v).setWidth 16).setWidth N = ~~~(v.setWidth N) by
        rw [← BitVec.setWidth_not hN'.2]
        apply BitVec.eq_of_toNat_eq
        rw [BitVec.toNat_setWidth, BitVec.toNat_setWidth, BitVec.toNat_setWidth, Nat.mod_eq_of_lt (a := (~~~v).toNat) hn], BitVec.not_not]
  · simp only [run, step, Option.bind_some]
    have h0 : ((setReg s d (v.setWidth 16 |>.setWidth 64)).regs d).toNat = v.toNat % 2 ^ 16 := by
      show (upd s.regs d _ d).toNat = _
      rw [upd_self, BitVec.setWidth_eq, BitVec.toNat_setWidth, BitVec.toNat_setWidth, Nat.mod_eq_of_lt (a := v.toNat % 2 ^ 16)]
      have := Nat.mod_lt v.toNat (show 0 < 2 ^ 16 by decide)
      omega
    obtain ⟨s1, a1, a2, a3⟩ := part_ok hd v (sh := 16) (by decide) _ h0
    obtain ⟨s2, b1, b2, b3⟩ := part_ok hd v (sh := 32) (by decide) _ a2
    obtain ⟨s3, c1, c2, c3⟩ := part_ok hd v (sh := 48) (by decide) _ b2
    refine ⟨s3, ?_, ?_, ?_⟩
    · rw [run_append, a1]
      simp only [Option.bind_some]
      rw [run_append, b1]
      exact c1
    · congr 1
      apply BitVec.eq_of_toNat_eq
      rw [c2]
      exact Nat.mod_eq_of_lt v.isLt
    · intro r hr
      rw [c3 r hr, b3 r hr, a3 r hr]
      exact upd_ne hr

/-! ### Operands -/

theorem frame_set (s : St) (n : Nat) {N : Nat} (v : BitVec N) : Frame n s (setReg s (.t n) v) :=
  ⟨fun _ => rfl, fun m hm => upd_ne (by simpa using hm)⟩

theorem agree_s (s : St) (i : Nat) {N : Nat} (v : BitVec N) : Agree s (setReg s (.s i) v) := ⟨fun _ => rfl, fun _ => rfl⟩

theorem agree_of_l {s s' : St} {i : Nat} (h : ∀ r, r ≠ .l i → s'.regs r = s.regs r) : Agree s s' :=
  ⟨fun x => h _ (by simp), fun m => h _ (by simp)⟩

theorem agree_of_s {s s' : St} {i : Nat} (h : ∀ r, r ≠ .s i → s'.regs r = s.regs r) : Agree s s' :=
  ⟨fun x => h _ (by simp), fun m => h _ (by simp)⟩

theorem inReg_ok {N : Nat} (hN : N = 32 ∨ N = 64) (i : Nat) {a : Opd} {n : Nat} (ha : Src n a) (s : St) :
    ∃ s', run (inReg N (.l i) a).1 s = some s' ∧ (s'.regs (inReg N (.l i) a).2).setWidth N = (a.get s.regs).setWidth N ∧
      Kept n (inReg N (.l i) a).2 ∧ (∀ r, r ≠ .l i → s'.regs r = s.regs r) ∧
      ((inReg N (.l i) a).2 = .l i ∨ a = .reg (inReg N (.l i) a).2) := by
  cases a with
  | reg r => exact ⟨s, rfl, rfl, src_kept ha, fun _ _ => rfl, .inr rfl⟩
  | imm v =>
    obtain ⟨s', e1, e2, e3⟩ := movImm_ok hN (d := .l i) (by simp [zr]) v s
    exact ⟨s', e1, e2, trivial, e3, .inl rfl⟩

theorem src_ne_l {n : Nat} {r : R} (h : Src n (.reg r)) (i : Nat) : r ≠ .l i := by
  intro e; subst e; exact h

theorem kept_ne_x16 {n : Nat} {r : R} (h : Kept n r) : r ≠ x16 := by
  intro e; subst e; exact h

theorem prep_both {N : Nat} (hN : N = 32 ∨ N = 64) {a b : Opd} {n : Nat} (ha : Src n a) (hb : Src n b) (s : St) :
    ∃ s', run ((inReg N (.l 0) a).1 ++ (inReg N (.l 1) b).1) s = some s' ∧
      (s'.regs (inReg N (.l 0) a).2).setWidth N = (a.get s.regs).setWidth N ∧
      (s'.regs (inReg N (.l 1) b).2).setWidth N = (b.get s.regs).setWidth N ∧
      Kept n (inReg N (.l 0) a).2 ∧ Kept n (inReg N (.l 1) b).2 ∧ Agree s s' := by
  obtain ⟨s1, e1, e2, e3, e4, e5⟩ := inReg_ok hN 0 ha s
  obtain ⟨s2, f1, f2, f3, f4, f5⟩ := inReg_ok hN 1 hb s1
  refine ⟨s2, by rw [run_append, e1]; exact f1, ?_, ?_, e3, f3, (agree_of_l e4).trans (agree_of_l f4)⟩
  · rw [f4 _ (by
      rcases e5 with e | e
      · rw [e]; simp
      · exact src_ne_l (e ▸ ha) 1), e2]
  · rw [f2, agree_get hb (agree_of_l e4)]

/-- What an operation leaves. -/
def Eff (n : Nat) {N : Nat} (z : BitVec N) (s : St) (x : Option St) : Prop :=
  ∃ s', x = some s' ∧ (s'.regs (.t n)).setWidth N = z ∧ Frame n s s'

theorem eff_last {n N : Nat} (hN : N ≤ 64) {z : BitVec N} {s s' : St} (h : Agree s s') : Eff n z s (some (setReg s' (.t n) z)) :=
  ⟨_, rfl, by
    show (upd s'.regs (.t n) _ (.t n)).setWidth N = z
    rw [upd_self, setWidth_setWidth hN, BitVec.setWidth_eq], (h.frame n).comp (frame_set _ _ _)⟩

theorem eff_val {n N : Nat} {z z' : BitVec N} {s : St} {x : Option St} (h : Eff n z s x) (e : z = z') : Eff n z' s x := e ▸ h

theorem both_ok (op : Op) {N : Nat} (hN : N = 32 ∨ N = 64) {a b : Opd} {n : Nat} (ha : Src n a) (hb : Src n b) (s : St) :
    Eff n (compute op ((a.get s.regs).setWidth N) ((b.get s.regs).setWidth N)) s (run (both op N a b (.t n)) s) := by
  obtain ⟨s', e1, e2, e3, e4, e5, e6⟩ := prep_both hN ha hb s
  unfold both
  rw [run_append, e1]
  simp only [Option.bind_some, run, step, rd_kept e4, rd_kept e5, e2, e3]
  exact eff_last (by omega) e6

theorem second_ok (op : Op) {N : Nat} (hN : N = 32 ∨ N = 64) {a b : Opd} {n : Nat} (ha : Src n a) (hb : Src n b) (s : St)
    (henc : ∀ v, b = .imm v → v.toInt ≤ 4095 → encodes op N v = true) :
    Eff n (compute op ((a.get s.regs).setWidth N) ((b.get s.regs).setWidth N)) s (run (withImm op N a b (.t n)) s) := by
  obtain ⟨s1, e1, e2, e3, e4, e5⟩ := inReg_ok hN 0 ha s
  have hag := agree_of_l e4
  unfold withImm
  rw [run_append, run_append, e1]
  cases b with
  | reg r =>
    have hr : rd s1 N r = ((Opd.reg r).get s.regs).setWidth N := by
      rw [rd_kept (src_kept hb)]
      congr 1
      exact agree_get hb hag
    simp only [second, Option.bind_some, run, step, hr, rd_kept e3, e2]
    exact eff_last (by omega) hag
  | imm v =>
    by_cases h : 4095 < v.toInt
    · obtain ⟨s2, f1, f2, f3⟩ := movImm_ok hN (d := x16) x16_ne v s1
      have e6 : (s2.regs (inReg N (.l 0) a).2).setWidth N = (a.get s.regs).setWidth N := by
        rw [f3 _ (kept_ne_x16 e3), e2]
      simp only [second, h, if_true, Option.bind_some, f1, run, step, rd_kept e3, e6, rd_x16, f2]
      exact eff_last (by omega) (hag.trans (agree_of_s f3))
    · have he := henc v rfl (by omega)
      simp only [second, h, if_false, Option.bind_some, run, step, he, if_true, rd_kept e3, e2]
      exact eff_last (by omega) hag

theorem add_enc {v : BitVec 64} (N : Nat) (h1 : -4095 ≤ v.toInt) (h2 : v.toInt ≤ 4095) (op : Op) (ho : op = .add ∨ op = .sub) :
    encodes op N v = true := by
  rcases ho with rfl | rfl <;> exact decide_eq_true ⟨h1, h2⟩

theorem count_mod {N : Nat} (hN : N = 32 ∨ N = 64) {y : BitVec 64} {m : Nat} (hm : m < N) (h : y.toNat % 256 = m) :
    (y.setWidth N).toNat % N = m := by
  rw [BitVec.toNat_setWidth]
  rcases hN with rfl | rfl <;> omega

theorem rem_ok {op : Op} {N : Nat} (hN : N = 32 ∨ N = 64) {a b : Opd} {n : Nat} (ha : Src n a) (hb : Src n b) (s : St) {z : BitVec N}
    (hz : (a.get s.regs).setWidth N - compute op ((a.get s.regs).setWidth N) ((b.get s.regs).setWidth N) * (b.get s.regs).setWidth N = z) :
    Eff n z s (run (rem op N a b (.t n)) s) := by
  obtain ⟨s', e1, e2, e3, e4, e5, e6⟩ := prep_both hN ha hb s
  unfold rem
  rw [run_append, e1]
  have h1 : ∀ q : BitVec N, rd (setReg s' x16 q) N (inReg N (.l 0) a).2 = (a.get s.regs).setWidth N := by
    intro q
    rw [rd_kept e4, ← e2]
    congr 1
    exact upd_ne (kept_ne_x16 e4)
  have h2 : ∀ q : BitVec N, rd (setReg s' x16 q) N (inReg N (.l 1) b).2 = (b.get s.regs).setWidth N := by
    intro q
    rw [rd_kept e5, ← e3]
    congr 1
    exact upd_ne (kept_ne_x16 e5)
  have h3 : ∀ q : BitVec N, rd (setReg s' x16 q) N x16 = q := by
    intro q
    rw [rd_x16]
    show (upd s'.regs x16 (q.setWidth 64) x16).setWidth N = q
    rw [upd_self, setWidth_setWidth (by omega), BitVec.setWidth_eq]
  have h4 : rd s' N (inReg N (.l 0) a).2 = (a.get s.regs).setWidth N := by rw [rd_kept e4, e2]
  have h5 : rd s' N (inReg N (.l 1) b).2 = (b.get s.regs).setWidth N := by rw [rd_kept e5, e3]
  simp only [Option.bind_some, run, step, h1, h2, h3, h4, h5]
  rw [hz]
  exact eff_last (by omega) (e6.trans (agree_s _ _ _))

theorem sub_of_eq {N : Nat} {X q r : BitVec N} (h : X = q + r) : X - q = r := by
  rw [h, BitVec.add_comm, BitVec.add_sub_cancel]

theorem msub_s {N : Nat} (X Y : BitVec N) (hY : Y ≠ 0) : X - compute .sdiv X Y * Y = BitVec.ofInt N (X.toInt.tmod Y.toInt) := by
  simp only [compute, if_neg hY]
  apply sub_of_eq
  have h := congrArg (BitVec.ofInt N) (Int.mul_tdiv_add_tmod X.toInt Y.toInt)
  rw [BitVec.ofInt_add, BitVec.ofInt_mul, BitVec.ofInt_toInt, BitVec.ofInt_toInt, BitVec.mul_comm] at h
  exact h.symm

theorem msub_u {N : Nat} (X Y : BitVec N) (hY : Y ≠ 0) : X - compute .udiv X Y * Y = BitVec.ofNat N (X.toNat % Y.toNat) := by
  simp only [compute, if_neg hY]
  apply sub_of_eq
  have h := congrArg (BitVec.ofNat N) (Nat.div_add_mod X.toNat Y.toNat)
  rw [BitVec.ofNat_add, BitVec.ofNat_mul, BitVec.ofNat_toNat, BitVec.ofNat_toNat, BitVec.setWidth_eq, BitVec.setWidth_eq, BitVec.mul_comm] at h
  exact h.symm

/-! ### Comparisons -/

/-- The signed opcode of a comparison, or the unsigned one. -/
def codeOf (op : CmpOp) (sg : Bool) : Code := if sg then cmpCode op else toUnsigned (cmpCode op)

theorem cond_ok (op : CmpOp) (sg : Bool) {N : Nat} (X Y : BitVec N) (f : Flags) (hz : f.z = (X == Y))
    (hn : sg = true → op ≠ .eq → op ≠ .ne → (f.n != f.v) = X.slt Y) (hc : sg = false → f.c = !X.ult Y) :
    (condOf (codeOf op sg)).holds f = specCmp op (bval sg X) (bval sg Y) := by
  rw [bval_eq sg] at hz
  cases sg with
  | true =>
    simp only [bval_lt_s, true_implies] at hn
    have hq : (f.n == f.v) = !(f.n != f.v) := by cases f.n <;> cases f.v <;> rfl
    cases op <;> simp only [codeOf, if_true, cmpCode, condOf, Cond.holds, specCmp]
    · exact hn (by simp) (by simp)
    · rw [hz, hn (by simp) (by simp), Bool.eq_iff_iff]; simp; omega
    · rw [hq, hz, hn (by simp) (by simp), Bool.eq_iff_iff]; simp; omega
    · rw [hq, hn (by simp) (by simp), Bool.eq_iff_iff]; simp
    · exact hz
    · rw [hz, Bool.eq_iff_iff]; simp
  | false =>
    simp only [bval_lt_u, true_implies] at hc
    cases op <;> simp only [codeOf, Bool.false_eq_true, if_false, toUnsigned, cmpCode, condOf, Cond.holds, specCmp]
    · rw [hc, Bool.eq_iff_iff]; simp
    · rw [hz, hc, Bool.eq_iff_iff]; simp; omega
    · rw [hz, hc, Bool.eq_iff_iff]; simp; omega
    · rw [hc, Bool.eq_iff_iff]; simp
    · exact hz
    · rw [hz, Bool.eq_iff_iff]; simp

theorem cmp_flags (op : CmpOp) (sg : Bool) {N : Nat} (hN : 0 < N) (X Y : BitVec N) :
    (condOf (codeOf op sg)).holds (subFlags X Y) = specCmp op (bval sg X) (bval sg Y) := by
  refine cond_ok op sg X Y _ (sub_beq X Y) (fun _ _ _ => sub_flags hN X Y) fun _ => ?_
  simp only [subFlags, BitVec.ult]
  rw [Bool.eq_iff_iff]
  simp

theorem cmn_flags (op : CmpOp) (sg : Bool) {N : Nat} (hN : 0 < N) (X Y : BitVec N) (h0 : sg = false → Y ≠ 0)
    (hm : sg = true → op ≠ .eq → op ≠ .ne → (-Y).toInt = -Y.toInt) :
    (condOf (codeOf op sg)).holds (addFlags X (-Y)) = specCmp op (bval sg X) (bval sg Y) := by
  have hs : X + -Y = X - Y := (BitVec.sub_eq_add_neg X Y).symm
  refine cond_ok op sg X Y _ ?_ (fun h1 h2 h3 => ?_) fun h => ?_
  · show (X + -Y == 0) = _
    rw [hs]
    exact sub_beq X Y
  · show ((X + -Y).msb != BitVec.saddOverflow X (-Y)) = _
    rw [← sub_flags hN X Y, hs]
    congr 1
    simp only [BitVec.saddOverflow, BitVec.ssubOverflow, hm h1 h2 h3]
    rfl
  · simp only [addFlags, BitVec.ult]
    have hY : Y.toNat ≠ 0 := fun e => h0 h (BitVec.eq_of_toNat_eq e)
    have h1 : (-Y).toNat = 2 ^ N - Y.toNat := by
      rw [BitVec.toNat_neg, Nat.mod_eq_of_lt (by have := Y.isLt; omega)]
    have := Y.isLt
    rw [h1, Bool.eq_iff_iff]
    simp
    omega

theorem one_zero (b : Bool) : ((if b then (1 : BitVec 32) else 0).setWidth 64) = if b then 1 else 0 := by cases b <;> rfl

/-- The assumption on literals: `-2^63` never, `-2^31` not in the order of 32-bit numbers. -/
def okCmp (op : CmpOp) (k : Kind) (i : Option (BitVec 64)) : Prop :=
  i ≠ some (BitVec.intMin 64) ∧ (op = .eq ∨ op = .ne ∨ k ≠ .int .w32 true ∨ i ≠ some (BitVec.ofInt 64 (-(2 ^ 31))))

/-- A literal that is negated. -/
theorem neg_lit {op : CmpOp} {k : Kind} {v : BitVec 64} (hok : okCmp op k (some v)) {b : Int} (hb : InRange k b) (hv : v = BitVec.ofInt 64 b)
    (hneg : v.toInt < 0) :
    v.setWidth (native k.width) ≠ 0 ∧ (sgOf k = true → op ≠ .eq → op ≠ .ne →
      (-(v.setWidth (native k.width))).toInt = -(v.setWidth (native k.width)).toInt) := by
  have hmin : v.toInt ≠ -(2 ^ 63) := by
    intro e
    apply hok.1
    congr 1
    apply BitVec.eq_of_toInt_eq
    rw [e]; rfl
  have hti : v.toInt = b.bmod (2 ^ 64) := by rw [hv, BitVec.toInt_ofInt]
  cases k with
  | bool =>
    rcases hb with h | h <;> subst h <;> subst hv <;> exact absurd hneg (by decide)
  | int w s =>
    rcases native_cases w with ⟨h32, hw⟩ | ⟨h64, hw⟩
    · have hr := inRange_rangeN hb
      have hr32 : RangeN s 32 b := rangeN_mono (bits_pos w) (by cases w <;> first | decide | exact absurd rfl hw) hr
      have hb64 : v.toInt = b := by
        rw [hti]
        cases s <;> simp only [RangeN] at hr32 <;> exact Int.bmod_eq_of_le (by omega) (by omega)
      have hs : s = true := by
        cases s with
        | true => rfl
        | false => simp only [RangeN] at hr32; omega
      subst hs
      simp only [RangeN] at hr32
      show v.setWidth (native w) ≠ (0 : BitVec (native w)) ∧ (_ → _ → _ → (-(v.setWidth (native w))).toInt = -(v.setWidth (native w)).toInt)
      rw [h32]
      have hY : (v.setWidth 32).toInt = b := by
        rw [hv, ofInt_setWidth (by decide), BitVec.toInt_ofInt]
        exact Int.bmod_eq_of_le (by omega) (by omega)
      refine ⟨fun e => ?_, fun _ h1 h2 => ?_⟩
      · rw [e] at hY
        have : (0 : BitVec 32).toInt = 0 := rfl
        omega
      · have hne : b ≠ -(2 ^ 31) := by
          intro e
          have h3 := (hok.2.resolve_left h1).resolve_left h2
          have hw32 : w = .w32 := by
            cases w with
            | w8 => exfalso; simp only [RangeN, Kind.signed, Kind.bits, Kind.width, Width.bits] at hr; omega
            | w16 => exfalso; simp only [RangeN, Kind.signed, Kind.bits, Kind.width, Width.bits] at hr; omega
            | w32 => rfl
            | w64 => exact absurd rfl hw
          subst hw32
          rcases h3 with h3 | h3
          · exact h3 rfl
          · exact h3 (by rw [hv, e])
        rw [BitVec.toInt_neg, hY]
        exact Int.bmod_eq_of_le (by omega) (by omega)
    · show v.setWidth (native w) ≠ (0 : BitVec (native w)) ∧ (_ → _ → _ → (-(v.setWidth (native w))).toInt = -(v.setWidth (native w)).toInt)
      rw [h64, BitVec.setWidth_eq]
      refine ⟨fun e => ?_, fun _ _ _ => ?_⟩
      · rw [e] at hneg; exact absurd hneg (by decide)
      · rw [BitVec.toInt_neg]
        have := BitVec.le_toInt v
        exact Int.bmod_eq_of_le (by omega) (by omega)

theorem eff_cset {n : Nat} {c : Cond} {f : Flags} {s s' : St} (h : Agree s s') {b : Bool} (hb : c.holds f = b) :
    ∃ st, step (.cset (.t n) c) (setFlags s' f) = some st ∧ st.regs (.t n) = (if b then 1 else 0) ∧ Frame n s st := by
  refine ⟨_, rfl, ?_, ?_⟩
  · show upd s'.regs (.t n) ((if c.holds f then (1 : BitVec 32) else 0).setWidth 64) (.t n) = _
    rw [upd_self, one_zero, hb]
  · exact (h.frame n).comp (frame_set (setFlags s' f) n _)

theorem scc_ok (op : CmpOp) (k : Kind) {a b : Opd} {n : Nat} (ha : Src n a) (hb : Src n b) (s : St) (hok : okCmp op k b.lit?)
    (hlit : ∀ u, b = .imm u → ∃ v, InRange k v ∧ u = BitVec.ofInt 64 v) :
    ∃ s', run (scc (codeOf op (sgOf k)) (native k.width) a b (.t n)) s = some s' ∧
      s'.regs (.t n) = (if specCmp op (bval (sgOf k) ((a.get s.regs).setWidth (native k.width)))
        (bval (sgOf k) ((b.get s.regs).setWidth (native k.width))) then 1 else 0) ∧ Frame n s s' := by
  have hN : native k.width = 32 ∨ native k.width = 64 := by
    rcases native_cases k.width with h | h
    · exact .inl h.1
    · exact .inr h.1
  have hpos := native_pos k.width
  generalize hNN : native k.width = N at *
  obtain ⟨s1, e1, e2, e3, e4, e5⟩ := inReg_ok hN 0 ha s
  have hag := agree_of_l e4
  have hf : rd s1 N (inReg N (.l 0) a).2 = (a.get s.regs).setWidth N := by rw [rd_kept e3, e2]
  unfold scc
  rw [run_append, run_append, e1]
  have fin : ∀ {s2 : St} {f : Flags}, Agree s s2 →
      (condOf (codeOf op (sgOf k))).holds f = specCmp op (bval (sgOf k) ((a.get s.regs).setWidth N)) (bval (sgOf k) ((b.get s.regs).setWidth N)) →
      ∃ s', (some (setFlags s2 f)).bind (run [.cset (.t n) (condOf (codeOf op (sgOf k)))]) = some s' ∧
        s'.regs (.t n) = (if specCmp op (bval (sgOf k) ((a.get s.regs).setWidth N)) (bval (sgOf k) ((b.get s.regs).setWidth N)) then 1 else 0) ∧
        Frame n s s' := by
    intro s2 f h1 h2
    obtain ⟨st, c1, c2, c3⟩ := eff_cset (n := n) h1 h2
    refine ⟨st, ?_, c2, c3⟩
    simp only [Option.bind_some, run, c1]
  cases b with
  | reg r =>
    have hr : rd s1 N r = ((Opd.reg r).get s.regs).setWidth N := by
      rw [rd_kept (src_kept hb)]
      congr 1
      exact agree_get hb hag
    simp only [Option.bind_some, genCmp, run, step, hf, hr]
    exact fin hag (cmp_flags op _ hpos _ _)
  | imm v =>
    obtain ⟨c, hc1, hc2⟩ := hlit v rfl
    have lit : ∀ m : BitVec 64, ∃ s2, run (movImm N x16 m) s1 = some s2 ∧ rd s2 N x16 = m.setWidth N ∧
        rd s2 N (inReg N (.l 0) a).2 = (a.get s.regs).setWidth N ∧ Agree s s2 := by
      intro m
      obtain ⟨s2, f1, f2, f3⟩ := movImm_ok hN x16_ne m s1
      refine ⟨s2, f1, by rw [rd_x16, f2], ?_, hag.trans (agree_of_s f3)⟩
      rw [rd_kept e3, f3 _ (kept_ne_x16 e3), e2]
    by_cases hneg : v.toInt < 0
    · have hn := neg_lit hok hc1 hc2 hneg
      rw [hNN] at hn
      have hfl := cmn_flags op (sgOf k) hpos ((a.get s.regs).setWidth N) (v.setWidth N) (fun _ => hn.1) hn.2
      rw [← setWidth_neg' (by omega)] at hfl
      by_cases h : 4095 < (-v).toInt
      · obtain ⟨s2, f1, f2, f3, f4⟩ := lit (-v)
        simp only [Option.bind_some, genCmp, hneg, decide_true, if_true, h]
        rw [run_append, f1]
        simp only [Option.bind_some, run, step, f2, f3]
        exact fin f4 hfl
      · have he : encodesCmp (-v) = true := by
          apply decide_eq_true
          refine ⟨?_, by omega⟩
          have hmin : v.toInt ≠ -(2 ^ 63) := by
            intro e
            apply hok.1
            simp only [Opd.lit?]
            congr 1
            apply BitVec.eq_of_toInt_eq
            rw [e]; rfl
          have := BitVec.le_toInt v
          rw [BitVec.toInt_neg, Int.bmod_eq_of_le (by omega) (by omega)]
          omega
        simp only [Option.bind_some, genCmp, hneg, decide_true, if_true, h, if_false, run, step, he, hf]
        exact fin hag hfl
    · have hfl := cmp_flags op (sgOf k) hpos ((a.get s.regs).setWidth N) (v.setWidth N)
      by_cases h : 4095 < v.toInt
      · obtain ⟨s2, f1, f2, f3, f4⟩ := lit v
        simp only [Option.bind_some, genCmp, hneg, decide_false, Bool.false_eq_true, if_true, if_false, h]
        rw [run_append, f1]
        simp only [Option.bind_some, run, step, f2, f3]
        exact fin f4 hfl
      · have he : encodesCmp v = true := decide_eq_true ⟨by omega, by omega⟩
        simp only [Option.bind_some, genCmp, hneg, decide_false, Bool.false_eq_true, if_true, if_false, h, run, step, he, hf]
        exact fin hag hfl

/-! ### The rules -/

/-- A literal that is added or subtracted is at least -4095. -/
def okBin (op : BinOp) (_ : Width) (i : Option (BitVec 64)) : Prop := op = .add ∨ op = .sub → ∀ v, i = some v → -4095 ≤ v.toInt

/-- Whether the conversion from `k` to the type fills the bits; `ea` if its operand did. -/
def exCast (k : Kind) (w : Width) (s ea : Bool) : Bool :=
  match k with
  | .bool => if w = .w8 then ea else true
  | .int w' s' => if w'.bits < w.bits then !s' || s else if w.bits < w'.bits then !s else false

/-- The extensions look at half of the bits of the new type: the operand has to fill them, if it is smaller. -/
def okCast (k : Kind) (w : Width) (_ ea : Bool) : Prop := k.bits < w.bits → k.bits * 2 ≠ w.bits → ea = true

def rules : Rules := .wide native okBin okCmp exCast okCast

theorem hNat (w : Width) : native w = 32 ∨ native w = 64 := by cases w <;> decide

theorem ext_reg {sk : Bool} {m N : Nat} (hm' : m ≤ N) {x : BitVec m} {a : Int} (h : bval sk x = a) :
    (if sk then x.signExtend N else x.setWidth N) = BitVec.ofInt N a := by
  have := ext_value (s := sk) hm' x
  rw [h] at this
  rw [← this, ofInt_bval]

/-- The extensions leave the value in the bits the target works with. -/
theorem extend_ok (k : Kind) (w : Width) (s : Bool) {x : Opd} {n : Nat} (hx : Src n x) (st : St) {a : Int} (ea : Bool)
    (hlt : k.bits < w.bits)
    (h1 : bval k.signed ((x.get st.regs).setWidth k.bits) = a) (h2 : ea = true → bval k.signed ((x.get st.regs).setWidth (native k.width)) = a)
    (hok : okCast k w s ea) (ha : RangeN k.signed k.bits a) :
    Eff n (BitVec.ofInt (native w) a) st (run (select ⟨if k.signed then .sext else .uext, x, x, .t n, .int w s, k⟩) st) := by
  have hk : k.width ≠ .w64 := by
    intro e
    have : k.bits = 64 := by
      cases k with
      | bool => cases e
      | int w' s' => rw [show w' = .w64 from e]; rfl
    have := bits_le w
    omega
  have h32 : native k.width = 32 := by
    rcases native_cases k.width with h | h
    · exact h.1
    · exact absurd h.2 hk
  have hpos : 0 < k.bits := bits_pos k.width
  rw [h32] at h2
  obtain ⟨s1, e1, e2, e3, e4, e5⟩ := inReg_ok (hNat k.width) 0 hx st
  rw [h32] at e1 e2 e3 e5
  have hrd : ∀ m, m ≤ 32 → rd s1 m (inReg 32 (.l 0) x).2 = (x.get st.regs).setWidth m := by
    intro m hm
    rw [rd_kept e3, ← setWidth_setWidth (b := m) (c := 32) hm, e2, setWidth_setWidth hm]
  have val : ∀ m : Nat, m ≤ 32 → k.bits ≤ m → (ea = true ∨ m = k.bits) → bval k.signed ((x.get st.regs).setWidth m) = a := by
    intro m hm hkm he
    rcases he with he | he
    · have := bval_narrow (n := m) (by omega) hm (h2 he) (rangeN_mono hpos hkm ha)
      rwa [setWidth_setWidth hm] at this
    · rw [he]; exact h1
  have hea : ∀ m, m * 2 = w.bits → k.bits ≤ m ∧ (ea = true ∨ m = k.bits) := by
    intro m hm
    have hb : k.bits ≤ m := by
      revert hlt hm
      cases k with
      | bool => simp only [Kind.bits, Kind.width]; cases w <;> simp only [Width.bits] <;> omega
      | int w' s' => simp only [Kind.bits, Kind.width]; cases w <;> cases w' <;> simp only [Width.bits] <;> omega
    refine ⟨hb, ?_⟩
    by_cases h : k.bits * 2 = w.bits
    · right; omega
    · exact .inl (hok hlt h)
  cases hs : k.signed with
  | true =>
    rw [hs] at val
    simp only [select, h32, if_true]
    rw [run_append, e1]
    cases w with
    | w8 => exfalso; revert hlt hpos; cases k with
      | bool => simp only [Kind.bits, Kind.width, Width.bits]; omega
      | int w' s' => cases w' <;> simp only [Kind.bits, Kind.width, Width.bits] <;> omega
    | w16 =>
      have h := hea 8 rfl
      simp only [Option.bind_some, sext, Kind.width, run, step, hrd 8 (by decide)]
      exact eff_val (eff_last (N := 32) (by decide) (agree_of_l e4)) (by
        have := ext_reg (sk := true) (N := 32) (by decide) (val 8 (by decide) h.1 h.2); exact this)
    | w32 =>
      have h := hea 16 rfl
      simp only [Option.bind_some, sext, Kind.width, run, step, hrd 16 (by decide)]
      exact eff_val (eff_last (N := 32) (by decide) (agree_of_l e4)) (by
        have := ext_reg (sk := true) (N := 32) (by decide) (val 16 (by decide) h.1 h.2); exact this)
    | w64 =>
      have h := hea 32 rfl
      simp only [Option.bind_some, sext, Kind.width, run, step, hrd 32 (by decide)]
      exact eff_val (eff_last (N := 64) (by decide) (agree_of_l e4)) (by
        have := ext_reg (sk := true) (N := 64) (by decide) (val 32 (by decide) h.1 h.2); exact this)
  | false =>
    rw [hs] at val
    simp only [select, h32, Bool.false_eq_true, if_false]
    rw [run_append, e1]
    cases w with
    | w8 => exfalso; revert hlt hpos; cases k with
      | bool => simp only [Kind.bits, Kind.width, Width.bits]; omega
      | int w' s' => cases w' <;> simp only [Kind.bits, Kind.width, Width.bits] <;> omega
    | w16 =>
      have h := hea 8 rfl
      simp only [Option.bind_some, uext, Kind.width, run, step, hrd 8 (by decide)]
      exact eff_val (eff_last (N := 32) (by decide) (agree_of_l e4)) (by
        have := ext_reg (sk := false) (N := 32) (by decide) (val 8 (by decide) h.1 h.2); exact this)
    | w32 =>
      have h := hea 16 rfl
      simp only [Option.bind_some, uext, Kind.width, run, step, hrd 16 (by decide)]
      exact eff_val (eff_last (N := 32) (by decide) (agree_of_l e4)) (by
        have := ext_reg (sk := false) (N := 32) (by decide) (val 16 (by decide) h.1 h.2); exact this)
    | w64 =>
      have h := hea 32 rfl
      simp only [Option.bind_some, uext, Kind.width, run, step, hrd 32 (by decide)]
      refine ⟨_, rfl, ?_, ((agree_of_l e4).frame n).comp (frame_set _ _ _)⟩
      show (upd s1.regs (.t n) _ (.t n)).setWidth 64 = _
      rw [upd_self, BitVec.setWidth_eq, BitVec.setWidth_eq]
      exact ext_reg (sk := false) (N := 64) (by decide) (val 32 (by decide) h.1 h.2)

theorem mask32 (X : BitVec 64) (m : Nat) (hm : m ≤ 32) :
    X.setWidth 32 &&& BitVec.ofNat 32 (2 ^ m - 1) = (X.setWidth m).setWidth 32 := by
  have h := congrArg (BitVec.setWidth 32) (mask_eq m (by omega) X)
  rw [BitVec.setWidth_and, setWidth_setWidth (by decide)] at h
  rw [← h]
  congr 1
  apply BitVec.eq_of_toNat_eq
  have hp : 2 ^ m ≤ 2 ^ 32 := Nat.pow_le_pow_right (by decide) hm
  have hq : 0 < 2 ^ m := Nat.pow_pos (by decide)
  rw [BitVec.toNat_setWidth, BitVec.toNat_ofNat, BitVec.toNat_ofNat, Nat.mod_eq_of_lt (a := 2 ^ m - 1) (b := 2 ^ 64) (by omega)]

theorem trunc_ok (k' : Kind) (w : Width) (s : Bool) (hlt : w.bits < k'.bits) {x : Opd} {n : Nat} (hx : Src n x) (st : St) :
    Eff n (((x.get st.regs).setWidth w.bits).setWidth 32) st (run (select ⟨.trunc, x, x, .t n, .int w s, k'⟩) st) := by
  obtain ⟨s1, e1, e2, e3, e4, e5⟩ := inReg_ok (hNat k'.width) 0 hx st
  have hle : 32 ≤ native k'.width := by rcases hNat k'.width with h | h <;> omega
  have hrd : rd s1 32 (inReg (native k'.width) (.l 0) x).2 = (x.get st.regs).setWidth 32 := by
    rw [rd_kept e3, ← setWidth_setWidth (b := 32) hle, e2, setWidth_setWidth hle]
  have hrd2 : ∀ u : BitVec 32, rd (setReg s1 x16 u) 32 (inReg (native k'.width) (.l 0) x).2 = (x.get st.regs).setWidth 32 := by
    intro u
    rw [← hrd, rd_kept e3, rd_kept e3]
    congr 1
    exact upd_ne (kept_ne_x16 e3)
  have h16 : ∀ u : BitVec 32, rd (setReg s1 x16 u) 32 x16 = u := by
    intro u
    rw [rd_x16]
    show (upd s1.regs x16 (u.setWidth 64) x16).setWidth 32 = u
    rw [upd_self, setWidth_setWidth (by decide), BitVec.setWidth_eq]
  simp only [select]
  rw [run_append, e1]
  cases w with
  | w64 =>
    exfalso
    have : k'.bits ≤ 64 := bits_le k'.width
    simp only [Width.bits] at hlt
    omega
  | w32 =>
    have hk : k'.width = .w64 := by
      cases k' with
      | bool => simp only [Kind.bits, Kind.width, Width.bits] at hlt; omega
      | int w' s' => cases w' <;> simp only [Kind.bits, Kind.width, Width.bits] at hlt ⊢ <;> omega
    simp only [Option.bind_some, trunc, Kind.width] at *
    simp only [hk, if_true, run, step, Option.bind_some] at hrd ⊢
    rw [hrd]
    exact eff_val (eff_last (N := 32) (by decide) (agree_of_l e4)) (by rw [show Width.w32.bits = 32 from rfl, BitVec.setWidth_eq])
  | w16 =>
    simp only [Option.bind_some, trunc, Kind.width, run, step] at *
    simp only [hrd2, h16, compute]
    exact eff_val (eff_last (N := 32) (by decide) ((agree_of_l e4).trans (agree_s _ _ _))) (mask32 _ 16 (by decide))
  | w8 =>
    simp only [Option.bind_some, trunc, Kind.width, run, step] at *
    simp only [hrd2, h16, compute]
    exact eff_val (eff_last (N := 32) (by decide) ((agree_of_l e4).trans (agree_s _ _ _))) (mask32 _ 8 (by decide))

theorem move_ok {k' : Kind} {w : Width} {s : Bool} {x : Opd} {n : Nat} (hx : Src n x) (st : St) :
    Eff n ((x.get st.regs).setWidth (native w)) st (exec ⟨.move, x, x, .t n, .int w s, k'⟩ st) := by
  cases x with
  | imm v =>
    obtain ⟨s', e1, e2, e3⟩ := movImm_ok (hNat w) (d := .t n) (by simp [zr]) v st
    exact ⟨s', e1, e2, ⟨fun x => e3 _ (by simp), fun m hm => e3 _ (by simpa using hm)⟩⟩
  | reg r =>
    have hr : rd st (native w) r = (st.regs r).setWidth (native w) := rd_kept (src_kept hx) _ _
    simp only [exec, select, run, step, Option.bind_some, Kind.width, hr]
    exact eff_last (native_le w).2 (Agree.refl st)

theorem wcorrect : WCorrect native okBin okCmp exCast okCast exec where
  native_le := native_le
  bin op w s x y n st m hx hy hok nz cnt := by
    have hN := hNat w
    have hb := (native_le w).1
    have shift : ∀ {op' : Op} {f : BitVec (native w) → Nat → BitVec (native w)}, (∀ x y, compute op' x y = f x (y.toNat % native w)) →
        (∀ v, encodes op' (native w) v = decide (v.toNat < native w)) → (op = .shl ∨ op = .shr) →
        Eff n (f ((x.get st.regs).setWidth (native w)) m) st (run (withImm op' (native w) x y (.t n)) st) := by
      intro op' f h1 h2 h3
      obtain ⟨c1, c2, c3⟩ := cnt h3
      have h := second_ok op' hN hx hy st fun v hv _ => by rw [h2]; exact decide_eq_true (by rw [c3 v hv]; omega)
      rw [h1, count_mod hN (by omega) c2] at h
      exact h
    have addsub : ∀ {op' : Op}, op' = .add ∨ op' = .sub → op = .add ∨ op = .sub →
        Eff n (compute op' ((x.get st.regs).setWidth (native w)) ((y.get st.regs).setWidth (native w))) st (run (withImm op' (native w) x y (.t n)) st) := by
      intro op' h1 h2
      exact second_ok op' hN hx hy st fun v hv hle => add_enc _ (hok h2 v (by rw [hv]; rfl)) hle op' h1
    cases op with
    | add => cases s <;> exact addsub (op' := .add) (.inl rfl) (.inl rfl)
    | sub => cases s <;> exact addsub (op' := .sub) (.inr rfl) (.inr rfl)
    | mul => cases s <;> exact both_ok .mul hN hx hy st
    | and => cases s <;> exact both_ok .and hN hx hy st
    | or => cases s <;> exact both_ok .orr hN hx hy st
    | xor => cases s <;> exact both_ok .eor hN hx hy st
    | div =>
      have nz := nz.resolve_right (by simp)
      cases s
      · exact eff_val (both_ok .udiv hN hx hy st) (if_neg nz)
      · exact eff_val (both_ok .sdiv hN hx hy st) (if_neg nz)
    | rem =>
      have nz := nz.resolve_right (by simp)
      cases s
      · exact rem_ok hN hx hy st (msub_u _ _ nz)
      · exact rem_ok hN hx hy st (msub_s _ _ nz)
    | shl => cases s <;> exact shift (op' := .lsl) (f := fun x m => x <<< m) (fun _ _ => rfl) (fun _ => rfl) (.inl rfl)
    | shr =>
      cases s
      · exact shift (op' := .lsr) (f := fun x m => x >>> m) (fun _ _ => rfl) (fun _ => rfl) (.inr rfl)
      · exact shift (op' := .asr) (f := fun x m => x.sshiftRight m) (fun _ _ => rfl) (fun _ => rfl) (.inr rfl)
  cmp op k x y n st hx hy hok hlit := by
    have e : opcodeFor (cmpCode op) k = codeOf op (sgOf k) := by
      cases k with
      | bool => rfl
      | int w s => cases s <;> rfl
    have sel : ∀ c, (∃ o sg, c = codeOf o sg) → select ⟨c, x, y, .t n, .bool, k⟩ = scc c (native k.width) x y (.t n) := by
      rintro c ⟨o, sg, rfl⟩
      cases sg <;> cases o <;> rfl
    rw [e, exec, sel _ ⟨op, _, rfl⟩]
    exact scc_ok op k hx hy st hok hlit
  neg w s x n st hx := by
    obtain ⟨s1, e1, e2, e3, e4, e5⟩ := inReg_ok (hNat w) 0 hx st
    have hrd : rd s1 (native w) (inReg (native w) (.l 0) x).2 = (x.get st.regs).setWidth (native w) := by rw [rd_kept e3, e2]
    simp only [exec, select, Kind.width]
    rw [run_append, e1]
    simp only [Option.bind_some, run, step, hrd, rd_zr, compute]
    exact eff_val (eff_last (native_le w).2 (agree_of_l e4)) (BitVec.zero_sub _)
  bnot w s x n st hx := by
    obtain ⟨s1, e1, e2, e3, e4, e5⟩ := inReg_ok (hNat w) 0 hx st
    have hrd : rd s1 (native w) (inReg (native w) (.l 0) x).2 = (x.get st.regs).setWidth (native w) := by rw [rd_kept e3, e2]
    simp only [exec, select, Kind.width]
    rw [run_append, e1]
    simp only [Option.bind_some, run, step, hrd]
    exact eff_last (native_le w).2 (agree_of_l e4)
  not r n st hx := both_ok .eor (hNat .w8) hx (show Src n (.imm 1) from trivial) st
  cast k w s x n st a ea hk hx ga hok ra := by
    have h1 : bval k.signed ((x.get st.regs).setWidth k.bits) = a := ga.1
    have h2 : ea = true → bval k.signed ((x.get st.regs).setWidth (native k.width)) = a := fun he => ga.2 he
    have hle := native_le w
    have fin : ∀ {Z : BitVec (native w)} {X : Option St}, Eff n Z st X → bval s (Z.setWidth w.bits) = wrapN s w.bits a →
        (exCast k w s ea = true → bval s Z = wrapN s w.bits a) →
        ∃ st', X = some st' ∧ bval s ((st'.regs (.t n)).setWidth w.bits) = wrapN s w.bits a ∧
        (exCast k w s ea = true → bval s ((st'.regs (.t n)).setWidth (native w)) = wrapN s w.bits a) ∧ Frame n st st' := by
      intro Z X h h1 h2
      obtain ⟨s', e1, e2, e3⟩ := h
      refine ⟨s', e1, ?_, fun he => by rw [e2]; exact h2 he, e3⟩
      rw [← setWidth_setWidth hle.1, e2]; exact h1
    have ext : k.bits < w.bits → (exCast k w s ea = true → RangeN s w.bits a) →
        castCode k (.int w s) = (if k.signed then .sext else .uext) →
        ∃ st', exec ⟨castCode k (.int w s), x, x, .t n, .int w s, k⟩ st = some st' ∧ bval s ((st'.regs (.t n)).setWidth w.bits) = wrapN s w.bits a ∧
        (exCast k w s ea = true → bval s ((st'.regs (.t n)).setWidth (native w)) = wrapN s w.bits a) ∧ Frame n st st' := by
      intro hlt hr hcode
      rw [hcode]
      have hE := extend_ok k w s hx st ea hlt h1 h2 hok (inRange_rangeN ra)
      refine fin hE ?_ fun he => ?_
      · rw [ofInt_setWidth hle.1, bval_ofInt s (bits_pos w)]
      · rw [bval_ofInt s (native_pos w), wrapN_range (native_pos w) (rangeN_mono (bits_pos w) hle.1 (hr he)), wrapN_range (bits_pos w) (hr he)]
    cases k with
    | bool =>
      have hr : RangeN s w.bits a := by
        rcases ra with h | h <;> subst h <;> cases s <;> cases w <;> exact ⟨by decide, by decide⟩
      by_cases h8 : w = .w8
      · subst h8
        obtain ⟨s1, e1, e2, e3, e4, e5⟩ := inReg_ok (hNat .w8) 0 hx st
        have hrd : rd s1 32 (inReg 32 (.l 0) x).2 = (x.get st.regs).setWidth 32 := (rd_kept e3 _ _).trans e2
        have hE : Eff n ((x.get st.regs).setWidth 32) st (exec ⟨.uext, x, x, .t n, .int .w8 s, .bool⟩ st) := by
          simp only [exec, select]
          rw [run_append]
          simp only [Kind.width]
          rw [e1]
          simp only [Option.bind_some, uext, Kind.width, run, step]
          rw [show native .w8 = 32 from rfl, hrd]
          exact eff_last (by decide) (agree_of_l e4)
        refine fin (Z := (x.get st.regs).setWidth 32) hE ?_ fun he => ?_
        · have := trunc_val false s (n := 8) (m := 8) (by decide) (by decide) ((x.get st.regs).setWidth 8)
          rw [BitVec.setWidth_eq, show bval false ((x.get st.regs).setWidth 8) = a from h1] at this
          refine Eq.trans (congrArg (bval s) ?_) this
          exact setWidth_setWidth (a := 64) (b := 8) (c := 32) (by decide) (x.get st.regs)
        · have h3 : bval false ((x.get st.regs).setWidth 32) = a := h2 (by simpa [exCast] using he)
          have := trunc_val false s (n := 32) (m := 32) (by decide) (by decide) ((x.get st.regs).setWidth 32)
          rw [BitVec.setWidth_eq, h3, wrapN_range (by decide) (rangeN_mono (n := 8) (by decide) (by decide) hr)] at this
          exact this.trans (wrapN_range (bits_pos _) hr).symm
      · exact ext (by cases w <;> first | exact absurd rfl h8 | decide) (fun _ => hr) rfl
    | int w' s' =>
      by_cases hlt : w'.bits < w.bits
      · refine ext hlt (fun he => ?_) (by simp only [castCode]; exact if_pos hlt)
        simp only [exCast, hlt, if_true, Bool.or_eq_true, Bool.not_eq_true'] at he
        exact range_ext (bits_pos w') hlt (inRange_rangeN ra) he
      · by_cases hgt : w.bits < w'.bits
        · have e : castCode (.int w' s') (.int w s) = .trunc := by simp only [castCode]; exact (if_neg hlt).trans (if_pos hgt)
          rw [e]
          have hv : bval s ((x.get st.regs).setWidth w.bits) = wrapN s w.bits a := by
            have := trunc_val s' s (bits_pos w) (Nat.le_of_lt hgt) ((x.get st.regs).setWidth w'.bits)
            rw [setWidth_setWidth (Nat.le_of_lt hgt), show bval s' ((x.get st.regs).setWidth w'.bits) = a from h1] at this
            exact this
          have h32 : native w = 32 := by
            rcases native_cases w with h | h
            · exact h.1
            · exfalso
              rw [h.2] at hgt
              have := bits_le w'
              simp only [Width.bits] at hgt this
              omega
          have hE := trunc_ok (.int w' s') w s hgt hx st
          rw [← h32] at hE
          refine fin hE ?_ fun he => ?_
          · rw [setWidth_setWidth hle.1, BitVec.setWidth_eq]; exact hv
          · simp only [exCast, hlt, hgt, if_false, if_true, Bool.not_eq_true'] at he
            subst he
            exact (ext_value (s := false) (N := native w) hle.1 _).trans hv
        · have e : castCode (.int w' s') (.int w s) = .move := by simp only [castCode]; exact (if_neg hlt).trans (if_neg hgt)
          rw [e]
          have hww : w' = w := by
            have : w'.bits = w.bits := by omega
            cases w <;> cases w' <;> first | rfl | (simp only [Width.bits] at this; omega)
          subst hww
          refine fin (move_ok hx st) ?_ fun he => ?_
          · rw [setWidth_setWidth hle.1]
            have := trunc_val s' s (bits_pos w') (Nat.le_refl _) ((x.get st.regs).setWidth w'.bits)
            rw [BitVec.setWidth_eq, show bval s' ((x.get st.regs).setWidth w'.bits) = a from h1] at this
            exact this
          · simp [exCast, Nat.lt_irrefl] at he

theorem correct : Correct rules exec := wcorrect.correct

end Nature.Arith.Arm64
