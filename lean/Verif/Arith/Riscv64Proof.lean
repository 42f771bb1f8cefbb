import Verif.Arith.Wide
import Verif.Arith.Regs
import Verif.Arith.Riscv64
/-
riscv64: each operation is right.
-/
namespace Nature.Arith.Riscv64

def exec (o : Lir) (s : St) : Option St := run (select o) s

theorem run_append (xs ys : List I) (s : St) : run (xs ++ ys) s = (run xs s).bind (run ys) := by
  induction xs generalizing s with
  | nil => rfl
  | cons x xs ih =>
    simp only [List.cons_append, run]
    cases step x s with
    | none => rfl
    | some s' => exact ih s'

theorem run_code (ls : List Lir) (s : St) : run (code ls) s = execAll exec ls s := by
  induction ls generalizing s with
  | nil => rfl
  | cons l ls ih =>
    have : code (l :: ls) = select l ++ code ls := rfl
    rw [this, run_append]
    simp only [execAll, exec]
    cases run (select l) s with
    | none => rfl
    | some s' => exact ih s'

theorem rd_kept {n : Nat} {r : R} (h : Kept n r) (s : St) : rd s r = s.regs r := by
  unfold rd
  rw [if_neg]
  intro e
  subst e
  exact h

theorem rd_t6 (s : St) : rd s t6 = s.regs t6 := by simp [rd, t6, zero]

theorem agree_l (s : St) (i : Nat) (v : BitVec 64) : Agree s (setReg s (.l i) v) := ⟨fun _ => rfl, fun _ => rfl⟩
theorem agree_s (s : St) (i : Nat) (v : BitVec 64) : Agree s (setReg s (.s i) v) := ⟨fun _ => rfl, fun _ => rfl⟩
theorem frame_set (s : St) (n : Nat) (v : BitVec 64) : Frame n s (setReg s (.t n) v) :=
  ⟨fun _ => rfl, fun m hm => upd_ne (by simpa using hm)⟩

theorem inReg_ok (i : Nat) {a : Opd} {n : Nat} (ha : Src n a) (s : St) :
    ∃ s', run (inReg (.l i) a).1 s = some s' ∧ s'.regs (inReg (.l i) a).2 = a.get s.regs ∧ Kept n (inReg (.l i) a).2 ∧
      (∀ r, r ≠ .l i → s'.regs r = s.regs r) ∧ ((inReg (.l i) a).2 = .l i ∨ a = .reg (inReg (.l i) a).2) := by
  cases a with
  | reg r => exact ⟨s, rfl, rfl, src_kept ha, fun _ _ => rfl, .inr rfl⟩
  | imm v =>
    refine ⟨setReg s (.l i) v, rfl, upd_self _ _ _, trivial, fun r hr => upd_ne hr, .inl rfl⟩

theorem agree_of {s s' : St} {i : Nat} (h : ∀ r, r ≠ .l i → s'.regs r = s.regs r) : Agree s s' :=
  ⟨fun x => h _ (by simp), fun m => h _ (by simp)⟩

theorem src_ne_l {n : Nat} {r : R} (h : Src n (.reg r)) (i : Nat) : r ≠ .l i := by
  intro e; subst e; exact h

theorem prep_both {a b : Opd} {n : Nat} (ha : Src n a) (hb : Src n b) (s : St) :
    ∃ s', run ((inReg (.l 0) a).1 ++ (inReg (.l 1) b).1) s = some s' ∧ rd s' (inReg (.l 0) a).2 = a.get s.regs ∧
      rd s' (inReg (.l 1) b).2 = b.get s.regs ∧ Agree s s' := by
  obtain ⟨s1, e1, e2, e3, e4, e5⟩ := inReg_ok 0 ha s
  obtain ⟨s2, f1, f2, f3, f4, f5⟩ := inReg_ok 1 hb s1
  refine ⟨s2, by rw [run_append, e1]; exact f1, ?_, ?_, (agree_of e4).trans (agree_of f4)⟩
  · rw [rd_kept e3, f4 _ (by
      rcases e5 with e | e
      · rw [e]; simp
      · exact src_ne_l (e ▸ ha) 1), e2]
  · rw [rd_kept f3, f2, agree_get hb (agree_of e4)]

/-- A second operand that may have gone to `t6`. -/
theorem prep_second {g : Opd → List I × Opd} {P : BitVec 64 → Prop}
    (hg : ∀ b, (∃ v, b = .imm v ∧ g b = ([.li t6 v], .reg t6)) ∨ (∃ v, b = .imm v ∧ g b = ([], .imm v) ∧ P v) ∨ ∃ r, b = .reg r ∧ g b = ([], .reg r))
    {a b : Opd} {n : Nat} (ha : Src n a) (hb : Src n b) (s : St) :
    ∃ s', run ((inReg (.l 0) a).1 ++ (g b).1) s = some s' ∧ rd s' (inReg (.l 0) a).2 = a.get s.regs ∧ Agree s s' ∧
      ((∃ v, (g b).2 = .imm v ∧ b = .imm v ∧ P v) ∨ ∃ r, (g b).2 = .reg r ∧ rd s' r = b.get s.regs) := by
  obtain ⟨s1, e1, e2, e3, e4, e5⟩ := inReg_ok 0 ha s
  rw [run_append, e1]
  rcases hg b with ⟨v, rfl, h⟩ | ⟨v, rfl, h, hp⟩ | ⟨r, rfl, h⟩
  · rw [h]
    refine ⟨setReg s1 t6 v, rfl, ?_, (agree_of e4).trans (agree_s _ _ _), .inr ⟨t6, rfl, ?_⟩⟩
    · rw [rd_kept e3, ← e2]
      exact kept_s e3 _ _ _
    · rw [rd_t6]; exact upd_self s1.regs t6 v
  · rw [h]
    exact ⟨s1, rfl, by rw [rd_kept e3, e2], agree_of e4, .inl ⟨v, rfl, rfl, hp⟩⟩
  · rw [h]
    refine ⟨s1, rfl, by rw [rd_kept e3, e2], agree_of e4, .inr ⟨r, rfl, ?_⟩⟩
    rw [rd_kept (src_kept hb)]
    exact agree_get hb (agree_of e4)

theorem second_cases (b : Opd) : (∃ v, b = .imm v ∧ second b = ([.li t6 v], .reg t6)) ∨
    (∃ v, b = .imm v ∧ second b = ([], .imm v) ∧ (-2048 ≤ v.toInt ∧ v.toInt ≤ 2047)) ∨ ∃ r, b = .reg r ∧ second b = ([], .reg r) := by
  cases b with
  | reg r => exact .inr (.inr ⟨r, rfl, rfl⟩)
  | imm v =>
    by_cases h : v.toInt < -2048 ∨ 2047 < v.toInt
    · exact .inl ⟨v, rfl, if_pos h⟩
    · exact .inr (.inl ⟨v, rfl, if_neg h, by omega⟩)

theorem cmpSecond_cases (b : Opd) : (∃ v, b = .imm v ∧ cmpSecond b = ([.li t6 v], .reg t6)) ∨
    (∃ v, b = .imm v ∧ cmpSecond b = ([], .imm v) ∧ (-2048 ≤ v.toInt ∧ v.toInt ≤ 2046)) ∨ ∃ r, b = .reg r ∧ cmpSecond b = ([], .reg r) := by
  cases b with
  | reg r => exact .inr (.inr ⟨r, rfl, rfl⟩)
  | imm v =>
    by_cases h : v.toInt < -2048 ∨ 2046 < v.toInt
    · exact .inl ⟨v, rfl, if_pos h⟩
    · exact .inr (.inl ⟨v, rfl, if_neg h, by omega⟩)

/-- What an operation leaves. -/
def Eff (n : Nat) (z : BitVec 64) (s : St) (x : Option St) : Prop := ∃ s', x = some s' ∧ s'.regs (.t n) = z ∧ Frame n s s'

theorem eff_last {n : Nat} {z : BitVec 64} {s s' : St} (h : Agree s s') : Eff n z s (some (setReg s' (.t n) z)) :=
  ⟨_, rfl, upd_self _ _ _, (h.frame n).comp (frame_set _ _ _)⟩

theorem both_ok (op : Op) {a b : Opd} {n : Nat} (ha : Src n a) (hb : Src n b) (s : St) :
    Eff n (compute op (a.get s.regs) (b.get s.regs)) s (run (both op a b (.t n)) s) := by
  obtain ⟨s', e1, e2, e3, e4⟩ := prep_both ha hb s
  unfold both
  rw [run_append, e1]
  simp only [Option.bind_some, run, step, e2, e3]
  exact eff_last e4

theorem add_ok {a b : Opd} {n : Nat} (ha : Src n a) (hb : Src n b) (s : St) :
    Eff n (a.get s.regs + b.get s.regs) s (run (add a b (.t n)) s) := by
  obtain ⟨s', e1, e2, e3, e4⟩ := prep_second second_cases ha hb s
  unfold add
  rw [run_append, e1]
  rcases e4 with ⟨v, h1, rfl, h2⟩ | ⟨r, h1, h2⟩
  · rw [h1]
    have he : encodes .add v = true := decide_eq_true h2
    simp only [Option.bind_some, run, step, he, if_true, e2]
    exact eff_last e3
  · rw [h1]
    simp only [Option.bind_some, run, step, e2, h2]
    exact eff_last e3

theorem sub_ok {a b : Opd} {n : Nat} (ha : Src n a) (hb : Src n b) (hi : b.lit? ≠ some (-2048)) (s : St) :
    Eff n (a.get s.regs - b.get s.regs) s (run (sub a b (.t n)) s) := by
  obtain ⟨s', e1, e2, e3, e4⟩ := prep_second second_cases ha hb s
  unfold sub
  rw [run_append, e1]
  rcases e4 with ⟨v, h1, rfl, h2⟩ | ⟨r, h1, h2⟩
  · rw [h1]
    have hne : v.toInt ≠ -2048 := by
      intro e
      apply hi
      simp only [Opd.lit?]
      congr 1
      apply BitVec.eq_of_toInt_eq
      rw [e]; rfl
    have hneg : (-v).toInt = -v.toInt := by
      rw [BitVec.toInt_neg]
      exact Int.bmod_eq_of_le (by omega) (by omega)
    have he : encodes .add (-v) = true := by
      apply decide_eq_true
      rw [hneg]; omega
    simp only [Option.bind_some, run, step, he, if_true, e2, compute]
    rw [← BitVec.sub_eq_add_neg]
    exact eff_last e3
  · rw [h1]
    simp only [Option.bind_some, run, step, e2, h2]
    exact eff_last e3

theorem shift_ok {op : Op} {f : BitVec 64 → Nat → BitVec 64} (hop : ∀ x y, compute op x y = f x (y.toNat % 64))
    (henc : ∀ v, encodes op v = decide (v.toNat < 64)) {a b : Opd} {n m : Nat} (ha : Src n a) (hb : Src n b) (s : St)
    (hm : m < 64) (hc : (b.get s.regs).toNat % 256 = m) (hl : ∀ u, b = .imm u → u.toNat = m) :
    Eff n (f (a.get s.regs) m) s (run (shift op a b (.t n)) s) := by
  obtain ⟨s', e1, e2, e3, e4⟩ := prep_second second_cases ha hb s
  have h64 : (b.get s.regs).toNat % 64 = m := by omega
  unfold shift
  rw [run_append, e1]
  rcases e4 with ⟨v, h1, rfl, h2⟩ | ⟨r, h1, h2⟩
  · rw [h1]
    have he : encodes op v = true := by rw [henc]; exact decide_eq_true (by rw [hl v rfl]; exact hm)
    simp only [Option.bind_some, run, step, he, if_true, e2, hop]
    rw [show v.toNat % 64 = m from h64]
    exact eff_last e3
  · rw [h1]
    simp only [Option.bind_some, run, step, e2, h2, hop, h64]
    exact eff_last e3

/-! ### Comparisons -/

theorem eff_two {n : Nat} {y z : BitVec 64} {s s' : St} (h : Agree s s') :
    Eff n z s (some (setReg (setReg s' (.t n) y) (.t n) z)) :=
  ⟨_, rfl, upd_self _ _ _, ((h.frame n).comp (frame_set _ _ _)).comp (frame_set _ _ _)⟩

theorem rd_out (s : St) (n : Nat) (v : BitVec 64) : rd (setReg s (.t n) v) (.t n) = v := by
  simp [rd, zero, setReg, upd]

theorem rd_zero (s : St) : rd s zero = 0 := by simp [rd]

theorem xor1 (c : Bool) : (if c then (1 : BitVec 64) else 0) ^^^ 1 = if !c then 1 else 0 := by cases c <;> rfl

theorem xor_sltu1 (x y : BitVec 64) : (if (x ^^^ y).ult 1 then (1 : BitVec 64) else 0) = if x == y then 1 else 0 := by
  have : (x ^^^ y).ult 1 = (x == y) := by
    rw [Bool.eq_iff_iff, beq_iff_eq, BitVec.ult, decide_eq_true_iff]
    constructor
    · intro h
      have h0 : (x ^^^ y).toNat = 0 := by
        have : (1 : BitVec 64).toNat = 1 := rfl
        omega
      have : x ^^^ y = 0#64 := BitVec.eq_of_toNat_eq h0
      exact BitVec.xor_eq_zero_iff.mp this
    · intro h; subst h; simp
  rw [this]

theorem xor_sltu0 (x y : BitVec 64) : (if (0 : BitVec 64).ult (x ^^^ y) then (1 : BitVec 64) else 0) = if x == y then 0 else 1 := by
  have : (0 : BitVec 64).ult (x ^^^ y) = !(x == y) := by
    have h := xor_sltu1 x y
    rw [Bool.eq_iff_iff, BitVec.ult, decide_eq_true_iff]
    simp only [Bool.not_eq_true', beq_eq_false_iff_ne, ne_eq]
    constructor
    · intro h h'; subst h'; simp at h
    · intro h
      rcases Nat.eq_zero_or_pos (x ^^^ y).toNat with h0 | h0
      · exact absurd (BitVec.xor_eq_zero_iff.mp (BitVec.eq_of_toNat_eq h0)) h
      · exact h0
  rw [this]
  cases x == y <;> rfl

/-- `v + 1` for an immediate that is not the largest. -/
theorem succ_s {v : BitVec 64} (h : -2048 ≤ v.toInt ∧ v.toInt ≤ 2046) : (v + 1).toInt = v.toInt + 1 := by
  rw [BitVec.toInt_add]
  exact Int.bmod_eq_of_le (by simp; omega) (by simp; omega)

theorem succ_u {v : BitVec 64} (h : v ≠ -1) : (v + 1).toNat = v.toNat + 1 := by
  rw [BitVec.toNat_add]
  apply Nat.mod_eq_of_lt
  have := v.isLt
  have hne : v.toNat ≠ 2 ^ 64 - 1 := by
    intro e
    apply h
    apply BitVec.eq_of_toNat_eq
    rw [e]; rfl
  have : (1 : BitVec 64).toNat = 1 := rfl
  omega

theorem eff_val {n : Nat} {z z' : BitVec 64} {s : St} {x : Option St} (h : Eff n z s x) (e : z = z') : Eff n z' s x := e ▸ h

theorem ite_b {c d : Bool} (h : c = d) : (if c then (1 : BitVec 64) else 0) = if d then 1 else 0 := by rw [h]

theorem enc_xor1 : encodes .xor 1 = true := by decide
theorem enc_sltu1 : encodes .sltu 1 = true := by decide

/-- The signed opcode of a comparison, or the unsigned one. -/
def codeOf (op : CmpOp) (sg : Bool) : Code := if sg then cmpCode op else toUnsigned (cmpCode op)

theorem scc_reg (op : CmpOp) (sg : Bool) {f r : R} {n : Nat} {s s' : St} (h : Agree s s') {X Y : BitVec 64} (hf : rd s' f = X) (hr : rd s' r = Y) :
    Eff n (if specCmp op (bval sg X) (bval sg Y) then 1 else 0) s (run (sccTail (codeOf op sg) f (.reg r) (.t n)) s') := by
  cases sg with
  | true =>
    cases op <;> simp only [codeOf, if_true, cmpCode, sccTail, run, step, enc_xor1, enc_sltu1, Option.bind_some, rd_out, rd_zero, hf, hr, compute]
    · exact eff_val (eff_last h) (ite_b (bval_lt_s X Y))
    · refine eff_val (eff_two h) ((xor1 _).trans (ite_b ?_))
      rw [bval_lt_s, specCmp, Bool.eq_iff_iff]; simp
    · exact eff_val (eff_last h) (ite_b (bval_lt_s Y X))
    · refine eff_val (eff_two h) ((xor1 _).trans (ite_b ?_))
      rw [bval_lt_s, specCmp, Bool.eq_iff_iff]; simp
    · exact eff_val (eff_two h) ((xor_sltu1 X Y).trans (ite_b (bval_eq true X Y)))
    · refine eff_val (eff_two h) ((xor_sltu0 X Y).trans ?_)
      rw [bval_eq true X Y, specCmp]
      by_cases e : bval true X = bval true Y <;> simp [e]
  | false =>
    cases op <;> simp only [codeOf, Bool.false_eq_true, if_false, if_true, toUnsigned, cmpCode, sccTail, run, step, enc_xor1, enc_sltu1, Option.bind_some, rd_out, rd_zero, hf, hr, compute]
    · exact eff_val (eff_last h) (ite_b (bval_lt_u X Y))
    · refine eff_val (eff_two h) ((xor1 _).trans (ite_b ?_))
      rw [bval_lt_u, specCmp, Bool.eq_iff_iff]; simp
    · exact eff_val (eff_last h) (ite_b (bval_lt_u Y X))
    · refine eff_val (eff_two h) ((xor1 _).trans (ite_b ?_))
      rw [bval_lt_u, specCmp, Bool.eq_iff_iff]; simp
    · exact eff_val (eff_two h) ((xor_sltu1 X Y).trans (ite_b (bval_eq false X Y)))
    · refine eff_val (eff_two h) ((xor_sltu0 X Y).trans ?_)
      rw [bval_eq false X Y, specCmp]
      by_cases e : bval false X = bval false Y <;> simp [e]

theorem scc_imm (op : CmpOp) (sg : Bool) {f : R} {n : Nat} {s s' : St} (h : Agree s s') {X Y : BitVec 64} (hf : rd s' f = X)
    (hY : -2048 ≤ Y.toInt ∧ Y.toInt ≤ 2046) (hne : sg = false → (op = .le ∨ op = .gt) → Y ≠ -1) :
    Eff n (if specCmp op (bval sg X) (bval sg Y) then 1 else 0) s (run (sccTail (codeOf op sg) f (.imm Y) (.t n)) s') := by
  have eY : encodes .slt Y = true := decide_eq_true ⟨hY.1, by omega⟩
  have eYu : encodes .sltu Y = true := eY
  have eYx : encodes .xor Y = true := eY
  have eS : encodes .slt (Y + 1) = true := decide_eq_true (by rw [succ_s hY]; omega)
  have eSu : encodes .sltu (Y + 1) = true := eS
  have s1 : X.slt (Y + 1) = decide (bval true X ≤ bval true Y) := by
    rw [bval_lt_s, show bval true (Y + 1) = bval true Y + 1 from succ_s hY, Bool.eq_iff_iff]
    simp; omega
  cases sg with
  | true =>
    cases op <;> simp only [codeOf, if_true, cmpCode, sccTail, run, step, enc_xor1, enc_sltu1, eY, eYx, eS, Option.bind_some, rd_out, rd_zero, hf, compute]
    · exact eff_val (eff_last h) (ite_b (bval_lt_s X Y))
    · exact eff_val (eff_last h) (ite_b s1)
    · refine eff_val (eff_two h) ((xor1 _).trans (ite_b ?_))
      rw [s1, specCmp, Bool.eq_iff_iff]; simp
    · refine eff_val (eff_two h) ((xor1 _).trans (ite_b ?_))
      rw [bval_lt_s, specCmp, Bool.eq_iff_iff]; simp
    · exact eff_val (eff_two h) ((xor_sltu1 X Y).trans (ite_b (bval_eq true X Y)))
    · refine eff_val (eff_two h) ((xor_sltu0 X Y).trans ?_)
      rw [bval_eq true X Y, specCmp]
      by_cases e : bval true X = bval true Y <;> simp [e]
  | false =>
    have u1 : Y ≠ -1 → X.ult (Y + 1) = decide (bval false X ≤ bval false Y) := by
      intro hy
      rw [bval_lt_u, show bval false (Y + 1) = bval false Y + 1 by
        simp only [bval, Bool.false_eq_true, if_false]; rw [succ_u hy]; rfl, Bool.eq_iff_iff]
      simp; omega
    cases op <;> simp only [codeOf, Bool.false_eq_true, if_false, if_true, toUnsigned, cmpCode, sccTail, run, step, enc_xor1, enc_sltu1, eYu, eYx, eSu, Option.bind_some, rd_out, rd_zero, hf, compute]
    · exact eff_val (eff_last h) (ite_b (bval_lt_u X Y))
    · exact eff_val (eff_last h) (ite_b (u1 (hne rfl (.inl rfl))))
    · refine eff_val (eff_two h) ((xor1 _).trans (ite_b ?_))
      rw [u1 (hne rfl (.inr rfl)), specCmp, Bool.eq_iff_iff]; simp
    · refine eff_val (eff_two h) ((xor1 _).trans (ite_b ?_))
      rw [bval_lt_u, specCmp, Bool.eq_iff_iff]; simp
    · exact eff_val (eff_two h) ((xor_sltu1 X Y).trans (ite_b (bval_eq false X Y)))
    · refine eff_val (eff_two h) ((xor_sltu0 X Y).trans ?_)
      rw [bval_eq false X Y, specCmp]
      by_cases e : bval false X = bval false Y <;> simp [e]

theorem scc_ok (op : CmpOp) (sg : Bool) {a b : Opd} {n : Nat} (ha : Src n a) (hb : Src n b) (s : St)
    (hne : sg = false → (op = .le ∨ op = .gt) → b.lit? ≠ some (-1)) :
    Eff n (if specCmp op (bval sg (a.get s.regs)) (bval sg (b.get s.regs)) then 1 else 0) s (run (scc (codeOf op sg) a b (.t n)) s) := by
  obtain ⟨s', e1, e2, e3, e4⟩ := prep_second cmpSecond_cases ha hb s
  unfold scc
  rw [run_append, e1]
  rcases e4 with ⟨v, h1, rfl, h2⟩ | ⟨r, h1, h2⟩
  · rw [h1]
    exact scc_imm op sg e3 e2 h2 (fun h h' e => hne h h' (by subst e; rfl))
  · rw [h1]
    exact scc_reg op sg e3 e2 h2

/-! ### Together -/

def native : Width → Nat := fun _ => 64

/-- No `x - (-2048)`. -/
def okBin (op : BinOp) (_ : Width) (i : Option (BitVec 64)) : Prop := op = .sub → i ≠ some (-2048)

/-- No `x <= 18446744073709551615` and `x > 18446744073709551615`. -/
def okCmp (op : CmpOp) (k : Kind) (i : Option (BitVec 64)) : Prop := (∃ w, k = .int w false) → op = .le ∨ op = .gt → i ≠ some (-1)

/-- Whether a conversion fills the register: extensions of unsigned types and to signed ones, truncations to `u8` and `u16`. -/
def exCast (k : Kind) (w : Width) (s : Bool) (_ : Bool) : Bool :=
  match k with
  | .bool => true
  | .int w' s' => if w'.bits < w.bits then !s' || s else if w.bits < w'.bits then !s && w != .w32 else false

/-- The conversions that extend look at more bits than the type has, except 16 to 32 and 32 to 64. -/
def okCast (k : Kind) (w : Width) (_ : Bool) (ea : Bool) : Prop :=
  k.width.bits < w.bits → ¬ (k.width = .w16 ∧ w = .w32) → ¬ (k.width = .w32 ∧ w = .w64) → ea = true

def rules : Rules := .wide native okBin okCmp exCast okCast

theorem sw64 (x : BitVec 64) (w : Width) : x.setWidth (native w) = x := BitVec.setWidth_eq x

/-- `binN` at 64 bits, from the result register. -/
theorem eff_bin {n : Nat} {w : Width} {z : BitVec (native w)} {st : St} {x : Option St} (h : Eff n z st x) :
    ∃ st', x = some st' ∧ (st'.regs (.t n)).setWidth (native w) = z ∧ Frame n st st' := by
  obtain ⟨s', e1, e2, e3⟩ := h
  exact ⟨s', e1, (sw64 _ w).trans e2, e3⟩

theorem ext_reg {sk : Bool} {m : Nat} (hm : 0 < m) (hm' : m ≤ 64) {X : BitVec 64} {a : Int} (h : bval sk (X.setWidth m) = a) :
    (if sk then (X.setWidth m).signExtend 64 else (X.setWidth m).setWidth 64) = BitVec.ofInt 64 a := by
  have := ext_value (s := sk) (N := 64) hm' (X.setWidth m)
  rw [h] at this
  rw [← this, ofInt_bval]

/-- The extensions leave the value in the whole register. -/
theorem extend_ok (sk : Bool) (k' : Kind) (w' w : Width) (s : Bool) {x : Opd} {n : Nat} (hx : Src n x) (st : St) {a : Int} (ea : Bool)
    (hle : w'.bits ≤ w.bits) (h8 : w = .w16 → w'.bits < w.bits) (hw : ¬ (w = .w8 ∧ w' ≠ .w8)) (h64 : w' ≠ .w64) (h32 : ¬ (w' = .w32 ∧ w = .w32))
    (h1 : bval sk ((x.get st.regs).setWidth w'.bits) = a) (h2 : ea = true → bval sk (x.get st.regs) = a)
    (hok : w'.bits < w.bits → ¬ (w' = .w16 ∧ w = .w32) → ¬ (w' = .w32 ∧ w = .w64) → ea = true) (ha : RangeN sk w'.bits a) :
    Eff n (BitVec.ofInt 64 a) st (run (select ⟨if sk then .sext else .uext, x, x, .t n, .int w s, k'⟩) st) := by
  obtain ⟨s1, e1, e2, e3, e4, e5⟩ := inReg_ok 0 hx st
  have hrun : ∀ (i : R → R → I) (z : BitVec 64), (∀ q, step (i (.t n) (inReg (.l 0) x).2) q = some (setReg q (.t n) z) ∨ q ≠ s1) →
      Eff n z st (run ((inReg (.l 0) x).1 ++ [i (.t n) (inReg (.l 0) x).2]) st) := by
    intro i z hi
    rw [run_append, e1]
    have := (hi s1).resolve_right (by simp)
    simp only [Option.bind_some, run, this]
    exact eff_last (agree_of e4)
  have hrd : rd s1 (inReg (.l 0) x).2 = x.get st.regs := by rw [rd_kept e3, e2]
  -- what each form computes
  have val : ∀ m : Nat, 0 < m → m ≤ 64 → w'.bits ≤ m → (ea = true ∨ m = w'.bits) →
      (if sk then ((x.get st.regs).setWidth m).signExtend 64 else ((x.get st.regs).setWidth m).setWidth 64) = BitVec.ofInt 64 a := by
    intro m hm hm' hwm he
    apply ext_reg hm hm'
    rcases he with he | he
    · exact bval_narrow hm hm' (h2 he) (rangeN_mono (bits_pos w') hwm ha)
    · rw [he]; exact h1
  have mv : ea = true → x.get st.regs = BitVec.ofInt 64 a := fun he => by rw [← h2 he, ofInt_bval]
  cases sk with
  | true =>
    cases w with
    | w8 =>
      refine hrun (.sext 8) _ fun q => ?_
      by_cases hq : q = s1
      · subst hq; left; simp only [step, hrd]; congr 2
        exact val 8 (by decide) (by decide) hle (.inr (by cases w' <;> first | rfl | exact absurd ⟨rfl, by simp⟩ hw))
      · exact .inr hq
    | w16 =>
      refine hrun .mv _ fun q => ?_
      by_cases hq : q = s1
      · subst hq; left; simp only [step, hrd]; congr 2
        exact mv (hok (h8 rfl) (by simp) (by simp))
      · exact .inr hq
    | w32 =>
      refine hrun (.sext 16) _ fun q => ?_
      by_cases hq : q = s1
      · subst hq; left; simp only [step, hrd]; congr 2
        refine val 16 (by decide) (by decide) (by cases w' <;> first | decide | exact absurd ⟨rfl, rfl⟩ h32 | exact absurd rfl h64) ?_
        cases w' with
        | w8 => exact .inl (hok (by decide) (by simp) (by simp))
        | w16 => exact .inr rfl
        | w32 => exact absurd ⟨rfl, rfl⟩ h32
        | w64 => exact absurd rfl h64
      · exact .inr hq
    | w64 =>
      refine hrun (.sext 32) _ fun q => ?_
      by_cases hq : q = s1
      · subst hq; left; simp only [step, hrd]; congr 2
        refine val 32 (by decide) (by decide) (by cases w' <;> first | decide | exact absurd rfl h64) ?_
        cases w' with
        | w8 => exact .inl (hok (by decide) (by simp) (by simp))
        | w16 => exact .inl (hok (by decide) (by simp) (by simp))
        | w32 => exact .inr rfl
        | w64 => exact absurd rfl h64
      · exact .inr hq
  | false =>
    cases w with
    | w8 =>
      refine hrun (.zext 8) _ fun q => ?_
      by_cases hq : q = s1
      · subst hq; left; simp only [step, hrd]; congr 2
        exact val 8 (by decide) (by decide) hle (.inr (by cases w' <;> first | rfl | exact absurd ⟨rfl, by simp⟩ hw))
      · exact .inr hq
    | w16 =>
      refine hrun .mv _ fun q => ?_
      by_cases hq : q = s1
      · subst hq; left; simp only [step, hrd]; congr 2
        exact mv (hok (h8 rfl) (by simp) (by simp))
      · exact .inr hq
    | w32 =>
      refine hrun (.zext 16) _ fun q => ?_
      by_cases hq : q = s1
      · subst hq; left; simp only [step, hrd]; congr 2
        refine val 16 (by decide) (by decide) (by cases w' <;> first | decide | exact absurd ⟨rfl, rfl⟩ h32 | exact absurd rfl h64) ?_
        cases w' with
        | w8 => exact .inl (hok (by decide) (by simp) (by simp))
        | w16 => exact .inr rfl
        | w32 => exact absurd ⟨rfl, rfl⟩ h32
        | w64 => exact absurd rfl h64
      · exact .inr hq
    | w64 =>
      refine hrun (.zext 32) _ fun q => ?_
      by_cases hq : q = s1
      · subst hq; left; simp only [step, hrd]; congr 2
        refine val 32 (by decide) (by decide) (by cases w' <;> first | decide | exact absurd rfl h64) ?_
        cases w' with
        | w8 => exact .inl (hok (by decide) (by simp) (by simp))
        | w16 => exact .inl (hok (by decide) (by simp) (by simp))
        | w32 => exact .inr rfl
        | w64 => exact absurd rfl h64
      · exact .inr hq

theorem trunc_ok (k' : Kind) (w : Width) (s : Bool) (hw : w ≠ .w64) {x : Opd} {n : Nat} (hx : Src n x) (st : St) :
    Eff n (if w = .w32 then x.get st.regs else ((x.get st.regs).setWidth w.bits).setWidth 64) st
      (run (select ⟨.trunc, x, x, .t n, .int w s, k'⟩) st) := by
  obtain ⟨s1, e1, e2, e3, e4, e5⟩ := inReg_ok 0 hx st
  have hrd : rd s1 (inReg (.l 0) x).2 = x.get st.regs := by rw [rd_kept e3, e2]
  have hne : (inReg (.l 0) x).2 ≠ .t n := by
    rcases e5 with e | e
    · rw [e]; simp
    · intro h
      rw [h] at e
      subst e
      exact Nat.lt_irrefl _ hx
  have hrd2 : ∀ v, rd (setReg s1 (.t n) v) (inReg (.l 0) x).2 = x.get st.regs := by
    intro v
    rw [rd_kept e3]
    show upd s1.regs (.t n) v _ = _
    rw [upd_ne hne, e2]
  have hrd3 : ∀ v u, rd (setReg (setReg s1 (.t n) v) t6 u) (inReg (.l 0) x).2 = x.get st.regs := by
    intro v u
    rw [rd_kept e3]
    show upd (upd s1.regs (.t n) v) t6 u _ = _
    rw [t6, kept_s e3, upd_ne hne, e2]
  have h6 : ∀ v u, rd (setReg (setReg s1 (.t n) v) t6 u) t6 = u := by
    intro v u; rw [rd_t6]; exact upd_self (setReg s1 (.t n) v).regs t6 u
  have three : ∀ v u z : BitVec 64, Eff n z st (some (setReg (setReg (setReg s1 (.t n) v) t6 u) (.t n) z)) := by
    intro v u z
    refine ⟨_, rfl, upd_self _ _ _, ?_⟩
    exact ((((agree_of e4).frame n).comp (frame_set _ _ _)).comp ((agree_s _ _ _).frame n)).comp (frame_set _ _ _)
  simp only [select]
  rw [run_append, e1]
  cases w with
  | w64 => exact absurd rfl hw
  | w32 =>
    simp only [Option.bind_some, trunc, Kind.width, run, step, hrd, hrd2, if_true]
    exact eff_two (agree_of e4)
  | w16 =>
    simp only [Option.bind_some, trunc, Kind.width, run, step, hrd, hrd3, h6, compute]
    exact eff_val (three _ _ _) (mask_eq 16 (by decide) _)
  | w8 =>
    simp only [Option.bind_some, trunc, Kind.width, run, step, hrd, hrd3, h6, compute]
    exact eff_val (three _ _ _) (mask_eq 8 (by decide) _)

theorem wcorrect : WCorrect native okBin okCmp exCast okCast exec where
  native_le w := ⟨bits_le w, Nat.le_refl 64⟩
  bin op w s x y n st m hx hy hok nz cnt := by
    rw [sw64, sw64]
    rw [sw64] at nz
    have h64 := bits_le w
    cases op with
    | add => cases s <;> exact eff_bin (add_ok hx hy st)
    | sub => cases s <;> exact eff_bin (sub_ok hx hy (hok rfl) st)
    | mul => cases s <;> exact eff_bin (both_ok .mul hx hy st)
    | and => cases s <;> exact eff_bin (both_ok .and hx hy st)
    | or => cases s <;> exact eff_bin (both_ok .or hx hy st)
    | xor => cases s <;> exact eff_bin (both_ok .xor hx hy st)
    | div =>
      have nz := nz.resolve_right (by simp)
      cases s
      · exact eff_bin (eff_val (both_ok .divu hx hy st) (if_neg nz))
      · exact eff_bin (eff_val (both_ok .div hx hy st) (if_neg nz))
    | rem =>
      have nz := nz.resolve_right (by simp)
      cases s
      · exact eff_bin (eff_val (both_ok .remu hx hy st) (if_neg nz))
      · exact eff_bin (eff_val (both_ok .rem hx hy st) (if_neg nz))
    | shl =>
      obtain ⟨h1, h2, h3⟩ := cnt (.inl rfl)
      cases s <;> exact eff_bin (shift_ok (op := .sll) (f := fun x m => x <<< m) (fun _ _ => rfl) (fun _ => rfl) hx hy st (by omega) h2 h3)
    | shr =>
      obtain ⟨h1, h2, h3⟩ := cnt (.inr rfl)
      cases s
      · exact eff_bin (shift_ok (op := .srl) (f := fun x m => x >>> m) (fun _ _ => rfl) (fun _ => rfl) hx hy st (by omega) h2 h3)
      · exact eff_bin (shift_ok (op := .sra) (f := fun x m => x.sshiftRight m) (fun _ _ => rfl) (fun _ => rfl) hx hy st (by omega) h2 h3)
  cmp op k x y n st hx hy hok _ := by
    rw [sw64, sw64]
    have e : opcodeFor (cmpCode op) k = codeOf op (sgOf k) := by
      cases k with
      | bool => rfl
      | int w s => cases s <;> rfl
    have sel : ∀ c, (∃ o sg, c = codeOf o sg) → select ⟨c, x, y, .t n, .bool, k⟩ = scc c x y (.t n) := by
      rintro c ⟨o, sg, rfl⟩
      cases sg <;> cases o <;> rfl
    rw [e, exec, sel _ ⟨op, _, rfl⟩]
    refine scc_ok op (sgOf k) hx hy st fun h => hok ?_
    cases k with
    | bool => cases h
    | int w s => exact ⟨w, by rw [show s = false from h]⟩
  neg w s x n st hx := by
    rw [sw64]
    obtain ⟨s1, e1, e2, e3, e4, e5⟩ := inReg_ok 0 hx st
    have hrd : rd s1 (inReg (.l 0) x).2 = x.get st.regs := by rw [rd_kept e3, e2]
    refine eff_bin (z := -x.get st.regs) ?_
    simp only [exec, select]
    rw [run_append, e1]
    simp only [Option.bind_some, run, step, hrd, rd_zero, compute]
    exact eff_val (eff_last (agree_of e4)) (BitVec.zero_sub _)
  bnot w s x n st hx := by
    rw [sw64]
    obtain ⟨s1, e1, e2, e3, e4, e5⟩ := inReg_ok 0 hx st
    have hrd : rd s1 (inReg (.l 0) x).2 = x.get st.regs := by rw [rd_kept e3, e2]
    refine eff_bin (z := ~~~x.get st.regs) ?_
    simp only [exec, select]
    rw [run_append, e1]
    have he : encodes .xor (-1) = true := by decide
    simp only [Option.bind_some, run, step, hrd, he, if_true, compute]
    exact eff_val (eff_last (agree_of e4)) (by rw [show (-1 : BitVec 64) = BitVec.allOnes 64 from rfl, BitVec.xor_allOnes]; rfl)
  not r n st hx := by
    rw [sw64]
    exact eff_bin (w := .w8) (both_ok .xor hx (show Src n (.imm 1) from trivial) st)
  cast k w s x n st a ea hk hx ga hok ra := by
    have h1 := ga.1
    have h2 : ea = true → bval k.signed (x.get st.regs) = a := fun he => by
      have := ga.2 he
      rw [ival_eq, show ((x.get st.regs).setWidth (Rules.native (.wide native okBin okCmp exCast okCast) k.width)) = x.get st.regs from sw64 _ k.width] at this
      exact this
    have fin : ∀ {Z : BitVec 64} {X : Option St}, Eff n Z st X → bval s (Z.setWidth w.bits) = wrapN s w.bits a →
        (exCast k w s ea = true → bval s Z = wrapN s w.bits a) →
        ∃ st', X = some st' ∧ bval s ((st'.regs (.t n)).setWidth w.bits) = wrapN s w.bits a ∧
        (exCast k w s ea = true → bval s ((st'.regs (.t n)).setWidth (native w)) = wrapN s w.bits a) ∧ Frame n st st' := by
      intro Z X h h1 h2
      obtain ⟨s', e1, e2, e3⟩ := h
      exact ⟨s', e1, by rw [e2]; exact h1, fun he => by rw [sw64, e2]; exact h2 he, e3⟩
    cases k with
    | bool =>
      have hr : RangeN s w.bits a := by
        rcases ra with h | h <;> subst h <;> cases s <;> cases w <;> exact ⟨by decide, by decide⟩
      have hE := extend_ok false .bool .w8 w s hx st ea (by cases w <;> decide) (by intro h; subst h; decide) (by simp) (by simp) (by simp) h1 h2
        (fun h => hok h) (inRange_rangeN ra)
      have hc := cast_val (bits_pos w) (bits_le w) (N := 64) (bits_le w) (Nat.le_refl 64) s (BitVec.setWidth_eq (BitVec.ofInt 64 a))
      rw [BitVec.setWidth_eq] at hc
      exact fin hE hc.1 fun _ => hc.2 hr
    | int w' s' =>
      by_cases hlt : w'.bits < w.bits
      · have e : castCode (.int w' s') (.int w s) = if s' then .sext else .uext := by simp only [castCode]; exact if_pos hlt
        rw [e]
        have hE := extend_ok s' (.int w' s') w' w s hx st ea (Nat.le_of_lt hlt) (fun _ => hlt)
          (by rintro ⟨rfl, _⟩; revert hlt; cases w' <;> decide) (by rintro rfl; revert hlt; cases w <;> decide)
          (by rintro ⟨rfl, rfl⟩; exact absurd hlt (Nat.lt_irrefl _)) h1 h2 (fun h => hok h) (inRange_rangeN ra)
        have hc := cast_val (bits_pos w) (bits_le w) (N := 64) (bits_le w) (Nat.le_refl 64) s (BitVec.setWidth_eq (BitVec.ofInt 64 a))
        rw [BitVec.setWidth_eq] at hc
        refine fin hE hc.1 fun he => hc.2 ?_
        simp only [exCast, hlt, if_true, Bool.or_eq_true, Bool.not_eq_true'] at he
        exact range_ext (bits_pos w') hlt (inRange_rangeN ra) he
      · by_cases hgt : w.bits < w'.bits
        · have e : castCode (.int w' s') (.int w s) = .trunc := by simp only [castCode]; exact (if_neg hlt).trans (if_pos hgt)
          rw [e]
          have hv : bval s ((x.get st.regs).setWidth w.bits) = wrapN s w.bits a := by
            have := trunc_val s' s (bits_pos w) (Nat.le_of_lt hgt) ((x.get st.regs).setWidth w'.bits)
            rw [setWidth_setWidth (Nat.le_of_lt hgt), show bval s' ((x.get st.regs).setWidth w'.bits) = a from h1] at this
            exact this
          have hw : w ≠ .w64 := by rintro rfl; revert hgt; cases w' <;> decide
          refine fin (trunc_ok _ w s hw hx st) ?_ fun he => ?_
          · split
            · exact hv
            · rw [setWidth_setWidth (bits_le w), BitVec.setWidth_eq]; exact hv
          · simp only [exCast, hlt, hgt, if_false, if_true, Bool.and_eq_true, Bool.not_eq_true', bne_iff_ne] at he
            obtain ⟨hs, h32⟩ := he
            rw [if_neg h32]
            subst hs
            exact (ext_value (s := false) (N := 64) (bits_le w) _).trans hv
        · have e : castCode (.int w' s') (.int w s) = .move := by simp only [castCode]; exact (if_neg hlt).trans (if_neg hgt)
          rw [e]
          have hww : w' = w := by
            have : w'.bits = w.bits := by omega
            cases w <;> cases w' <;> first | rfl | (simp only [Width.bits] at this; omega)
          subst hww
          have hE : Eff n (x.get st.regs) st (exec ⟨.move, x, x, .t n, .int w' s, .int w' s'⟩ st) := by
            cases x with
            | imm v => exact eff_last (Agree.refl st)
            | reg r =>
              simp only [exec, select, run, step, Option.bind_some]
              rw [rd_kept (src_kept hx)]
              exact eff_last (Agree.refl st)
          refine fin hE ?_ fun he => ?_
          · have := trunc_val s' s (bits_pos w') (Nat.le_refl _) ((x.get st.regs).setWidth w'.bits)
            rw [BitVec.setWidth_eq, show bval s' ((x.get st.regs).setWidth w'.bits) = a from h1] at this
            exact this
          · simp [exCast, Nat.lt_irrefl] at he

theorem correct : Correct rules exec := wcorrect.correct

end Nature.Arith.Riscv64
