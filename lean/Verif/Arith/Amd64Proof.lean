import Verif.Arith.Regs
import Verif.Arith.Amd64
/-
amd64: each operation is right.
-/
namespace Nature.Arith.Amd64

/-- amd64 has operations for every width.  Left out: division and remainder of a negative dividend, and `bool as i8`, `bool as u8`. -/
def rules : Rules where
  native := Width.bits
  exBin _ _ _ _ _ := true
  okBin op _ s _ _ _ a _ := (op = .div ∨ op = .rem) → s = true → 0 ≤ a
  okCmp _ _ _ _ _ := True
  exNeg _ _ _ := true
  exNot _ _ _ := true
  exCast _ _ _ _ := true
  okCast k w _ _ := k = .bool → w ≠ .w8

def exec (o : Lir) (s : St) : Option St := run (select o) s

theorem run_append (xs ys : List I) (s : St) : run (xs ++ ys) s = (run xs s).bind (run ys) := by
  induction xs generalizing s with
  | nil => rfl
  | cons x xs ih =>
    simp only [List.cons_append, run]
    cases step x s with
    | none => rfl
    | some s' => exact ih s'

theorem run_code (ls : List Lir) (s : St) : run (code ls) s = execAll exec ls s := by
  induction ls generalizing s with
  | nil => rfl
  | cons l ls ih =>
    have : code (l :: ls) = select l ++ code ls := rfl
    rw [this, run_append]
    simp only [execAll, exec]
    cases run (select l) s with
    | none => rfl
    | some s' => exact ih s'

theorem low_put_aux (m : Nat) (hm : m ≤ 64) (old : BitVec 64) (v : BitVec m) :
    (((old >>> m) <<< m) ||| v.setWidth 64).setWidth m = v := by
  apply BitVec.eq_of_getLsbD_eq
  intro i hi
  have h1 : i < 64 := by omega
  simp only [BitVec.getLsbD_setWidth, BitVec.getLsbD_or, BitVec.getLsbD_shiftLeft, hi, h1, decide_true, Bool.not_true, Bool.and_false,
    Bool.false_and, Bool.true_and, Bool.false_or]

theorem low_put (w : Width) (old : BitVec 64) (v : BitVec w.bits) : low w (put w old v) = v := by
  cases w with
  | w8 => exact low_put_aux 8 (by decide) old v
  | w16 => exact low_put_aux 16 (by decide) old v
  | w32 => exact (BitVec.setWidth_setWidth_of_le v (by decide)).trans (BitVec.setWidth_eq v)
  | w64 => exact BitVec.setWidth_eq v

theorem good_iff {e : Bool} {k : Kind} {x : BitVec 64} {v : Int} : Good rules e k x v ↔ bval k.signed (low k.width x) = v :=
  ⟨fun h => h.1, fun h => ⟨h, fun _ => h⟩⟩

/-- What an operation leaves: the value in the temporary, and the frame. -/
def Eff (n : Nat) (w : Width) (r : BitVec w.bits) (s : St) (x : Option St) : Prop :=
  ∃ s', x = some s' ∧ low w (s'.regs (.t n)) = r ∧ Frame n s s'

theorem imm_cases (k : Kind) (b : Opd) :
    (∃ v, b = .imm v ∧ imm k b = ([.mov .w64 (.l 1) (.imm v)], .reg (.l 1))) ∨ imm k b = ([], b) := by
  cases b with
  | reg r => exact .inr rfl
  | imm v =>
    simp only [imm]
    split
    · exact .inl ⟨v, rfl, rfl⟩
    · exact .inr rfl

theorem inReg_cases (k : Kind) (l : R) (b : Opd) :
    (∃ v, b = .imm v ∧ inReg k l b = ([.mov k.width l (.imm v)], l)) ∨ (∃ r, b = .reg r ∧ inReg k l b = ([], r)) := by
  cases b with
  | reg r => exact .inr ⟨r, rfl, rfl⟩
  | imm v => exact .inl ⟨v, rfl, rfl⟩

theorem put64 (old : BitVec 64) (v : BitVec 64) : put .w64 old (low .w64 v) = v := BitVec.setWidth_eq v

theorem ternary_ok (op : Alu) (k : Kind) {a b : Opd} {n : Nat} (ha : Src n a) (hb : Src n b) (s : St) :
    Eff n k.width (aluOp op (low k.width (a.get s.regs)) (low k.width (b.get s.regs))) s (run (ternary op k a b (.t n)) s) := by
  rcases imm_cases k b with ⟨v, rfl, hi⟩ | hi
  · simp only [ternary, hi, List.cons_append, List.nil_append, run, step, Option.bind_some, setReg]
    refine ⟨_, rfl, ?_, by frames⟩
    simp only [upd_self, low_put, get_upd_l ha, get_reg, get_imm]
    rw [upd_ne (by simp), upd_self, put64]
  · simp only [ternary, hi, List.nil_append, run, step, Option.bind_some, setReg]
    refine ⟨_, rfl, ?_, by frames⟩
    simp only [upd_self, low_put, get_upd_l hb, get_reg, get_imm]

theorem shift_ok (op : Sh) (k : Kind) {a b : Opd} {n : Nat} (ha : Src n a) (s : St) :
    Eff n k.width (shOp op (low k.width (a.get s.regs)) (shCount k.width (put k.width (s.regs rcx) (low k.width (b.get s.regs))))) s
      (run (shift op k a b (.t n)) s) := by
  simp only [shift, rcx, run, step, Option.bind_some, setReg]
  refine ⟨_, rfl, ?_, by frames⟩
  simp only [upd_self, low_put, get_upd_s ha, get_reg]
  rw [upd_ne (by simp), upd_self]

theorem mul8_aux (x y : BitVec 8) : ((x.signExtend 16) * (y.signExtend 16)).setWidth 8 = x * y := by
  have h : ∀ z : BitVec 8, (z.signExtend 16).setWidth 8 = z := by decide +kernel
  rw [BitVec.setWidth_mul _ _ (by decide), h, h]

theorem low8_put16 (old : BitVec 64) (v : BitVec 16) : low .w8 (put .w16 old v) = v.setWidth 8 := by
  have h := low_put .w16 old v
  have : low .w8 (put .w16 old v) = (low .w16 (put .w16 old v)).setWidth 8 := by
    simp only [low]
    exact (BitVec.setWidth_setWidth_of_le _ (by decide)).symm
  rw [this, h]
  rfl

theorem low8_put8 (old : BitVec 64) (v : BitVec 8) : low .w8 (put .w8 old v) = v := low_put .w8 old v

theorem mul8_ok (k : Kind) (hk : k.width = .w8) {a b : Opd} {n : Nat} (ha : Src n a) (hb : Src n b) (s : St) :
    Eff n .w8 (low .w8 (a.get s.regs) * low .w8 (b.get s.regs)) s (run (mul k a b (.t n)) s) := by
  unfold mul
  rw [if_pos hk]
  rcases inReg_cases k (.l 2) b with ⟨v, rfl, hi⟩ | ⟨r, rfl, hi⟩
  · simp only [hi, hk, rax, List.cons_append, List.nil_append, run, step, Option.bind_some, setReg]
    refine ⟨_, rfl, ?_, by frames⟩
    simp only [upd_self, low_put, get_upd_l ha, get_reg, get_imm, low8_put16]
    rw [low8_put8, upd_ne (r := .s 0) (q := .l 2) (by simp), upd_self, low_put]
    exact mul8_aux _ _
  · simp only [hi, rax, List.nil_append, run, step, Option.bind_some, setReg]
    refine ⟨_, rfl, ?_, by frames⟩
    simp only [upd_self, low_put, get_reg, low8_put16]
    rw [low8_put8, show upd s.regs (.s 0) _ r = s.regs r from get_upd_s hb s.regs 0 _]
    exact mul8_aux _ _

theorem mul_ok (k : Kind) {a b : Opd} {n : Nat} (ha : Src n a) (hb : Src n b) (s : St) :
    Eff n k.width (low k.width (a.get s.regs) * low k.width (b.get s.regs)) s (run (mul k a b (.t n)) s) := by
  by_cases hk : k.width = .w8
  · rw [hk]; exact mul8_ok k hk ha hb s
  · unfold mul
    rw [if_neg hk]
    have hia := imm_cases k a
    have hib := imm_cases k b
    rcases hia with ⟨u, rfl, hia⟩ | hia
    · rcases hib with ⟨v, rfl, hib⟩ | hib
      · -- both are large literals
        simp only [hia, hib, List.cons_append, List.nil_append, run, step, Option.bind_some, setReg]
        refine ⟨_, rfl, ?_, by frames⟩
        simp only [upd_self, low_put, get_reg, get_imm, put64]
        rw [upd_ne (by simp), upd_self, low_put]
      · cases b with
        | imm v =>
          simp only [hia, hib, List.cons_append, List.nil_append, run, step, Option.bind_some, setReg]
          refine ⟨_, rfl, ?_, by frames⟩
          simp only [upd_self, low_put, get_imm, put64]
        | reg r =>
          simp only [hia, hib, List.cons_append, List.nil_append, List.append_nil, run, step, Option.bind_some, setReg]
          refine ⟨_, rfl, ?_, by frames⟩
          simp only [upd_self, low_put, get_reg, get_imm, put64]
          rw [show upd (upd s.regs (.l 1) u) (.l 0) _ r = _ from (get_upd_l hb _ 0 _).trans (get_upd_l hb s.regs 1 _)]
          rfl
    · rcases hib with ⟨v, rfl, hib⟩ | hib
      · cases a with
        | imm u =>
          simp only [hia, hib, List.cons_append, List.nil_append, run, step, Option.bind_some, setReg]
          refine ⟨_, rfl, ?_, by frames⟩
          simp only [upd_self, low_put, get_imm, put64]
          exact BitVec.mul_comm _ _
        | reg r =>
          simp only [hia, hib, List.cons_append, List.nil_append, run, step, Option.bind_some, setReg]
          refine ⟨_, rfl, ?_, by frames⟩
          simp only [upd_self, low_put, get_reg, get_imm, put64]
          rw [upd_ne (by simp), upd_self, low_put]
      · cases a with
        | imm u =>
          cases b with
          | imm v =>
            simp only [hia, hib, run, step, Option.bind_some, setReg]
            refine ⟨_, rfl, ?_, by frames⟩
            simp only [upd_self, low_put, get_imm]
            exact BitVec.mul_comm _ _
          | reg r =>
            simp only [hia, hib, List.nil_append, run, step, Option.bind_some, setReg]
            refine ⟨_, rfl, ?_, by frames⟩
            simp only [upd_self, low_put, get_imm, get_reg]
            exact BitVec.mul_comm _ _
        | reg q =>
          cases b with
          | imm v =>
            simp only [hia, hib, List.nil_append, run, step, Option.bind_some, setReg]
            refine ⟨_, rfl, ?_, by frames⟩
            simp only [upd_self, low_put, get_imm, get_reg]
          | reg r =>
            simp only [hia, hib, List.nil_append, List.append_nil, List.cons_append, run, step, Option.bind_some, setReg]
            refine ⟨_, rfl, ?_, by frames⟩
            simp only [upd_self, low_put, get_reg]
            rw [show upd s.regs (.l 0) _ r = s.regs r from get_upd_l hb s.regs 0 _]

/-! ### Division -/

def divX (s : Bool) : (n : Nat) → BitVec n → BitVec n → BitVec n → Option (BitVec n × BitVec n) := if s then divS else divU

/-- Dividing with a zero upper half: right for dividends that are not negative. -/
theorem divX_ok {s : Bool} {n : Nat} (hn : 0 < n) (lo d : BitVec n) (hb : bval s d ≠ 0) (hr : RangeN s n ((bval s lo).tdiv (bval s d)))
    (hm : RangeN s n ((bval s lo).tmod (bval s d))) (ha : s = true → 0 ≤ bval s lo) :
    ∃ q m, divX s n 0 lo d = some (q, m) ∧ bval s q = (bval s lo).tdiv (bval s d) ∧ bval s m = (bval s lo).tmod (bval s d) := by
  cases s with
  | true =>
    have ha := ha rfl
    simp only [bval, if_true] at *
    have e : (lo.toNat : Int) = lo.toInt := by
      have := BitVec.toInt_eq_toNat_cond lo
      split at this
      · exact this.symm
      · exfalso
        have := lo.isLt
        omega
    have hz : (0#n).toInt * 2 ^ n + (lo.toNat : Int) = lo.toInt := by rw [e]; simp
    refine ⟨BitVec.ofInt n (lo.toInt.tdiv d.toInt), BitVec.ofInt n (lo.toInt.tmod d.toInt), ?_, ?_, ?_⟩
    · simp only [divX, if_true, divS]
      rw [show ((0 : BitVec n).toInt * 2 ^ n + (lo.toNat : Int)) = lo.toInt from hz, if_neg hb]
      simp only [RangeN] at hr
      rw [if_neg (by omega)]
    · have := bval_ofInt true hn (lo.toInt.tdiv d.toInt)
      rw [wrapN_range hn hr] at this
      exact this
    · have := bval_ofInt true hn (lo.toInt.tmod d.toInt)
      rw [wrapN_range hn hm] at this
      exact this
  | false =>
    simp only [bval, Bool.false_eq_true, if_false] at *
    have hd : d.toNat ≠ 0 := fun e => hb (by rw [e]; rfl)
    have hz : (0#n).toNat * 2 ^ n + lo.toNat = lo.toNat := by simp
    have hlt : lo.toNat / d.toNat < 2 ^ n := Nat.lt_of_le_of_lt (Nat.div_le_self _ _) lo.isLt
    have hlt' : lo.toNat % d.toNat < 2 ^ n := Nat.lt_of_le_of_lt (Nat.mod_le _ _) lo.isLt
    refine ⟨BitVec.ofNat n (lo.toNat / d.toNat), BitVec.ofNat n (lo.toNat % d.toNat), ?_, ?_, ?_⟩
    · simp only [divX, Bool.false_eq_true, if_false, divU]
      rw [show ((0 : BitVec n).toNat * 2 ^ n + lo.toNat) = lo.toNat from hz, if_neg hd, if_neg (by omega)]
    · rw [BitVec.toNat_ofNat, Nat.mod_eq_of_lt hlt]; rfl
    · rw [BitVec.toNat_ofNat, Nat.mod_eq_of_lt hlt']; rfl

theorem aluOp_xor_self {n : Nat} (x : BitVec n) : aluOp .xor x x = 0 := BitVec.xor_self

theorem ah_aux (old : BitVec 64) (x : BitVec 8) : ahOf (put .w8 (put .w16 old (0 : BitVec 16)) x) = 0 := by
  apply BitVec.eq_of_getLsbD_eq
  intro i hi
  have h1 : i + 8 < 64 := by omega
  have h2 : ¬ 8 + i < 8 := by omega
  have h3 : 8 + i < 16 := by omega
  have h4 : 8 + i < 64 := by omega
  have h5 : 8 + (8 + i - 8) = 8 + i := by omega
  simp [ahOf, put, Width.bits, hi, h3, h4, h5]

theorem put16_ah (old : BitVec 64) (v : BitVec 16) : ahOf (put .w16 old v) = (v >>> 8).setWidth 8 := by
  apply BitVec.eq_of_getLsbD_eq
  intro i hi
  have h3 : 8 + i < 16 := by omega
  have h4 : 8 + i < 64 := by omega
  simp [ahOf, put, Width.bits, hi, h3, h4]

theorem app_hi (m q : BitVec 8) : ((m ++ q : BitVec 16) >>> 8).setWidth 8 = m := by
  apply BitVec.eq_of_getLsbD_eq
  intro i hi
  have h3 : 8 + i < 16 := by omega
  simp only [BitVec.getLsbD_setWidth, hi, decide_true, Bool.true_and, BitVec.getLsbD_ushiftRight]
  exact (BitVec.getLsbD_append).trans (by simp)

theorem app_lo (m q : BitVec 8) : (m ++ q : BitVec 16).setWidth 8 = q := by
  apply BitVec.eq_of_getLsbD_eq
  intro i hi
  simp only [BitVec.getLsbD_setWidth, hi, decide_true, Bool.true_and]
  exact (BitVec.getLsbD_append).trans (by simp [hi])

theorem put16_hi (old : BitVec 64) (m q : BitVec 8) : ahOf (put .w16 old (m ++ q)) = m := (put16_ah old (m ++ q)).trans (app_hi m q)

theorem put16_lo (old : BitVec 64) (m q : BitVec 8) : low .w8 (put .w16 old (m ++ q)) = q := (low8_put16 old (m ++ q)).trans (app_lo m q)

theorem runDiv_w {f : (n : Nat) → BitVec n → BitVec n → BitVec n → Option (BitVec n × BitVec n)} {w : Width} (hw : w ≠ .w8) {r : R} {s : St}
    {q m : BitVec w.bits} (h : f w.bits (low w (s.regs rdx)) (low w (s.regs rax)) (low w (s.regs r)) = some (q, m)) :
    runDiv f w r s = some { s with regs := upd (upd s.regs rax (put w (s.regs rax) q)) rdx (put w (s.regs rdx) m) } := by
  cases w with
  | w8 => exact absurd rfl hw
  | w16 => simp only [runDiv]; rw [h]
  | w32 => simp only [runDiv]; rw [h]
  | w64 => simp only [runDiv]; rw [h]

theorem runDiv_8 {f : (n : Nat) → BitVec n → BitVec n → BitVec n → Option (BitVec n × BitVec n)} {r : R} {s : St}
    {q m : BitVec 8} (h : f 8 (ahOf (s.regs rax)) (low .w8 (s.regs rax)) (low .w8 (s.regs r)) = some (q, m)) :
    runDiv f .w8 r s = some (setReg s rax (put .w16 (s.regs rax) (m ++ q))) := by
  simp only [runDiv]; rw [h]

theorem step_div (s : Bool) (w : Width) (r : R) (st : St) : step ((if s then I.idiv else I.div) w r) st = runDiv (divX s) w r st := by
  cases s <;> rfl

/-- The sequence after the divisor is in a register. -/
theorem factor_tail (sg rem : Bool) (w : Width) {a : Opd} {r : R} {n : Nat} (hr : Kept n r) (s : St)
    (ha : a.get (upd s.regs rax (put .w16 (s.regs rax) 0)) = a.get s.regs) (ha' : ∀ v, a.get (upd s.regs rdx v) = a.get s.regs)
    {q m : BitVec w.bits} (h : divX sg w.bits 0 (low w (a.get s.regs)) (low w (s.regs r)) = some (q, m)) :
    Eff n w (if rem then m else q) s (run (if w = .w8 then
      [.alu .xor .w16 rax (.reg rax), .mov .w8 rax a, (if sg then I.idiv else I.div) w r, if rem then .movAh (.t n) else .mov .w8 (.t n) (.reg rax)]
    else
      [.alu .xor w rdx (.reg rdx), .mov w rax a, (if sg then I.idiv else I.div) w r, .mov w (.t n) (.reg (if rem then rdx else rax))]) s) := by
  by_cases hw : w = .w8
  · subst hw
    simp only [if_true, run, step_div]
    simp only [step, Option.bind_some, setReg, get_reg, aluOp_xor_self]
    have h0 : ahOf (upd (upd s.regs rax (put .w16 (s.regs rax) 0)) rax
        (put .w8 (upd s.regs rax (put .w16 (s.regs rax) 0) rax) (low .w8 (a.get (upd s.regs rax (put .w16 (s.regs rax) 0))))) rax) = 0 := by
      rw [upd_self, upd_self]; exact ah_aux _ _
    have h1 : low .w8 (upd (upd s.regs rax (put .w16 (s.regs rax) 0)) rax
        (put .w8 (upd s.regs rax (put .w16 (s.regs rax) 0) rax) (low .w8 (a.get (upd s.regs rax (put .w16 (s.regs rax) 0))))) rax) =
        low .w8 (a.get s.regs) := by
      rw [upd_self, low_put, ha]
    have h2 : low .w8 (upd (upd s.regs rax (put .w16 (s.regs rax) 0)) rax
        (put .w8 (upd s.regs rax (put .w16 (s.regs rax) 0) rax) (low .w8 (a.get (upd s.regs rax (put .w16 (s.regs rax) 0))))) r) =
        low .w8 (s.regs r) := by
      rw [rax, kept_s hr, kept_s hr]
    rw [runDiv_8 (q := q) (m := m) (by dsimp only; rw [h0, h1, h2]; exact h)]
    simp only [Option.bind_some, setReg]
    cases rem with
    | true =>
      simp only [if_true, step, Option.bind_some, setReg]
      refine ⟨_, rfl, ?_, by (simp only [rax]; frames)⟩
      simp only [upd_self]
      exact (low8_put8 _ _).trans (put16_hi _ m q)
    | false =>
      simp only [Bool.false_eq_true, if_false, step, Option.bind_some, setReg, get_reg]
      refine ⟨_, rfl, ?_, by (simp only [rax]; frames)⟩
      simp only [upd_self]
      exact (low8_put8 _ _).trans (put16_lo _ m q)
  · simp only [if_neg hw, run, step_div]
    simp only [step, Option.bind_some, setReg, get_reg, aluOp_xor_self]
    rw [runDiv_w hw (q := q) (m := m) (by
      dsimp only
      rw [ha', upd_self, low_put, rax, kept_s hr, rdx, kept_s hr, upd_ne (by simp), upd_self, low_put]
      exact h)]
    simp only [Option.bind_some]
    refine ⟨_, rfl, ?_, by (simp only [rax, rdx]; frames)⟩
    simp only [upd_self, low_put]
    cases rem with
    | true => simp only [if_true, upd_self, low_put]
    | false =>
      simp only [Bool.false_eq_true, if_false]
      rw [upd_ne (by simp [rax, rdx]), upd_self, low_put]

theorem factor_ok (sg rem : Bool) (k : Kind) {a b : Opd} {n : Nat} (ha : Src n a) (hb : Src n b) (s : St)
    {q m : BitVec k.width.bits} (h : divX sg k.width.bits 0 (low k.width (a.get s.regs)) (low k.width (b.get s.regs)) = some (q, m)) :
    Eff n k.width (if rem then m else q) s (run (factor sg rem k a b (.t n)) s) := by
  unfold factor
  rcases inReg_cases k (.l 2) b with ⟨v, rfl, hi⟩ | ⟨r, rfl, hi⟩
  · rw [hi]
    simp only [List.cons_append, List.nil_append, run, step, Option.bind_some, setReg]
    obtain ⟨s', e1, e2, e3⟩ := factor_tail sg rem k.width (a := a) (r := .l 2) (n := n) trivial
      ⟨upd s.regs (.l 2) (put k.width (s.regs (.l 2)) (low k.width (Opd.get s.regs (.imm v)))), s.flags⟩
      (get_upd_s ha _ _ _) (fun v => get_upd_s ha _ _ _) (q := q) (m := m)
      (by dsimp only; rw [get_upd_l ha, upd_self, low_put]; exact h)
    exact ⟨s', e1, e2, fun x => e3.1 x, fun j hj => e3.2 j hj⟩
  · rw [hi]
    simp only [List.nil_append]
    exact factor_tail sg rem k.width (src_kept hb) s (get_upd_s ha _ _ _) (fun v => get_upd_s ha _ _ _) h

/-! ### Comparisons and conversions -/

def ccOf (c : Code) : CC := (setcc c).getD .e

theorem scc_ok (cc : CC) (k : Kind) {a b : Opd} {n : Nat} (ha : Src n a) (hb : Src n b) (s : St) :
    Eff n .w8 (if holds (cmpFlags (low k.width (a.get s.regs)) (low k.width (b.get s.regs))) cc then 1 else 0) s
      (run (scc cc k a b (.t n)) s) := by
  unfold scc
  rcases imm_cases k b with ⟨v, rfl, hi⟩ | hi
  · rcases inReg_cases k (.l 2) a with ⟨u, rfl, hj⟩ | ⟨r, rfl, hj⟩
    · simp only [hi, hj, List.cons_append, List.nil_append, run, step, Option.bind_some, setReg]
      refine ⟨_, rfl, ?_, by frames⟩
      simp only [upd_self, low_put, get_reg, get_imm, put64]
      rw [upd_ne (r := .l 2) (q := .l 1) (by simp), upd_self]
      rfl
    · simp only [hi, hj, List.cons_append, List.nil_append, run, step, Option.bind_some, setReg]
      refine ⟨_, rfl, ?_, by frames⟩
      simp only [upd_self, low_put, get_reg, get_imm, put64]
      rw [show upd s.regs (.l 1) v r = s.regs r from get_upd_l ha s.regs 1 _]
      rfl
  · rcases inReg_cases k (.l 2) a with ⟨u, rfl, hj⟩ | ⟨r, rfl, hj⟩
    · simp only [hi, hj, List.cons_append, List.nil_append, run, step, Option.bind_some, setReg]
      refine ⟨_, rfl, ?_, by frames⟩
      simp only [upd_self, low_put, get_imm, get_upd_l hb]
      rfl
    · simp only [hi, hj, List.nil_append, run, step, Option.bind_some, setReg]
      refine ⟨_, rfl, ?_, by frames⟩
      simp only [upd_self, get_reg]
      exact low8_put8 _ _

theorem holds_s {n : Nat} (h : 0 < n) (op : CmpOp) (x y : BitVec n) :
    holds (cmpFlags x y) (ccOf (cmpCode op)) = specCmp op (bval true x) (bval true y) := by
  have e1 : ((x - y).msb != BitVec.ssubOverflow x y) = decide (bval true x < bval true y) := by rw [sub_flags h, bval_lt_s]
  have e2 : (x - y == 0) = decide (bval true x = bval true y) := by rw [sub_beq, bval_eq true]
  have e3 : ((x - y).msb == BitVec.ssubOverflow x y) = !decide (bval true x < bval true y) := by
    rw [← e1]; cases (x - y).msb <;> cases BitVec.ssubOverflow x y <;> rfl
  cases op <;> simp only [cmpCode, ccOf, setcc, Option.getD, holds, cmpFlags, specCmp, e1, e2, e3] <;>
    (rw [Bool.eq_iff_iff]; simp; try omega)

theorem holds_u {n : Nat} (op : CmpOp) (x y : BitVec n) :
    holds (cmpFlags x y) (ccOf (toUnsigned (cmpCode op))) = specCmp op (bval false x) (bval false y) := by
  have e1 := bval_lt_u x y
  have e2 : (x - y == 0) = decide (bval false x = bval false y) := by rw [sub_beq, bval_eq false]
  cases op <;> simp only [cmpCode, toUnsigned, ccOf, setcc, Option.getD, holds, cmpFlags, specCmp, e1, e2] <;>
    (rw [Bool.eq_iff_iff]; simp; try omega)

theorem inReg_ok (k : Kind) {a : Opd} {n : Nat} (ha : Src n a) (s : St) :
    ∃ s', run (inReg k (.l 2) a).1 s = some s' ∧ low k.width (s'.regs (inReg k (.l 2) a).2) = low k.width (a.get s.regs) ∧
      Frame n s s' ∧ Kept n (inReg k (.l 2) a).2 := by
  rcases inReg_cases k (.l 2) a with ⟨v, rfl, hi⟩ | ⟨r, rfl, hi⟩
  · rw [hi]
    simp only [run, step, Option.bind_some, setReg]
    refine ⟨_, rfl, ?_, by frames, trivial⟩
    simp only [upd_self, low_put, get_imm]
  · rw [hi]
    exact ⟨s, rfl, rfl, ⟨fun _ => rfl, fun _ _ => rfl⟩, src_kept ha⟩

theorem frame_set {n : Nat} {s s' : St} (h : Frame n s s') (v : BitVec 64) : Frame n s (setReg s' (.t n) v) := frame_t v h

theorem ext_ok (sg : Bool) (k kf : Kind) (hk : kf.width.bits < k.width.bits) {a : Opd} {n : Nat} (ha : Src n a) (s : St) :
    Eff n k.width (if sg then (low kf.width (a.get s.regs)).signExtend k.width.bits else (low kf.width (a.get s.regs)).setWidth k.width.bits) s
      (run ((inReg kf (.l 2) a).1 ++ [(if sg then I.movsx else I.movzx) k.width (.t n) kf.width (inReg kf (.l 2) a).2]) s) := by
  obtain ⟨s', e1, e2, e3, _⟩ := inReg_ok kf ha s
  rw [run_append, e1]
  cases sg with
  | true =>
    simp only [Option.bind_some, if_true, run, step]
    rw [if_neg (by omega)]
    refine ⟨_, rfl, ?_, frame_set e3 _⟩
    simp only [setReg, upd_self, low_put, e2]
  | false =>
    simp only [Option.bind_some, Bool.false_eq_true, if_false, run, step]
    rw [if_neg (by omega)]
    refine ⟨_, rfl, ?_, frame_set e3 _⟩
    simp only [setReg, upd_self, low_put, e2]

theorem trunc_ok (k kf : Kind) (hk : k.width.bits ≤ kf.width.bits) {a : Opd} {n : Nat} (ha : Src n a) (s : St) :
    Eff n k.width ((low kf.width (a.get s.regs)).setWidth k.width.bits) s
      (run ((inReg kf (.l 2) a).1 ++ [.mov k.width (.t n) (.reg (inReg kf (.l 2) a).2)]) s) := by
  obtain ⟨s', e1, e2, e3, _⟩ := inReg_ok kf ha s
  rw [run_append, e1]
  simp only [Option.bind_some, run, step]
  refine ⟨_, rfl, ?_, frame_set e3 _⟩
  simp only [setReg, upd_self, low_put, get_reg, ← e2]
  simp only [low]
  exact (BitVec.setWidth_setWidth_of_le _ hk).symm

theorem one_ok (i : Width → R → I) (f : (w : Width) → BitVec w.bits → BitVec w.bits) (k : Kind)
    (h : ∀ w r s, step (i w r) s = some (setReg s r (put w (s.regs r) (f w (low w (s.regs r)))))) {a : Opd} {n : Nat} (s : St) :
    Eff n k.width (f k.width (low k.width (a.get s.regs))) s (run [.mov k.width (.t n) a, i k.width (.t n)] s) := by
  simp only [run, h]
  simp only [step, Option.bind_some, setReg]
  refine ⟨_, rfl, ?_, by frames⟩
  simp only [upd_self, low_put]

/-! ### Together -/

theorem eff_good {n : Nat} {k : Kind} {r : BitVec k.width.bits} {st : St} {x : Option St} {v : Int} {e : Bool} (h : Eff n k.width r st x)
    (hv : bval k.signed r = v) : ∃ st', x = some st' ∧ Good rules e k (st'.regs (.t n)) v ∧ Frame n st st' := by
  obtain ⟨s', e1, e2, e3⟩ := h
  exact ⟨s', e1, good_iff.mpr (by rw [e2]; exact hv), e3⟩

theorem shCount_ok {w : Width} {s : Bool} (old : BitVec 64) (x : BitVec w.bits) {b : Int} (hx : bval s x = b) (h0 : 0 ≤ b) (h1 : b < w.bits) :
    shCount w (put w old x) = b.toNat := by
  have e8 : (put w old x).setWidth 8 = x.setWidth 8 := by
    have h := low_put w old x
    have : (low w (put w old x)).setWidth 8 = (put w old x).setWidth 8 :=
      BitVec.setWidth_setWidth_of_le _ (by cases w <;> decide)
    rw [← this, h]
  have hn : x.toNat = b.toNat := by
    cases s with
    | true =>
      simp only [bval, if_true] at hx
      have h := BitVec.toInt_eq_toNat_cond x
      have hl := x.isLt
      split at h <;> omega
    | false =>
      simp only [bval, Bool.false_eq_true, if_false] at hx
      omega
  have hb : b.toNat < w.bits := by omega
  have h256 : b.toNat < 256 := by have := bits_le w; omega
  unfold shCount
  rw [e8, BitVec.toNat_setWidth, hn, Nat.mod_eq_of_lt (show b.toNat < 2 ^ 8 from h256)]
  split
  · exact Nat.mod_eq_of_lt hb
  · rename_i hw
    exact Nat.mod_eq_of_lt (Nat.lt_of_lt_of_le hb (by cases w <;> first | decide | exact absurd rfl hw))

theorem correct : Correct rules exec where
  native_le w := ⟨Nat.le_refl _, bits_le w⟩
  bin op w s x y n st a b v ea eb ra rb hx hy ga gb hok _ hv := by
    have ga := good_iff.mp ga
    have gb := good_iff.mp gb
    have hp := bits_pos w
    simp only [exec]
    cases op with
    | add =>
      have e : opcodeFor (binCode .add) (.int w s) = .add := by cases s <;> rfl
      rw [e]
      simp only [specBin, Option.some.injEq] at hv
      exact eff_good (ternary_ok .add (.int w s) hx hy st) ((bval_add s hp _ _).trans (by rw [← hv, ← ga, ← gb]; rfl))
    | sub =>
      have e : opcodeFor (binCode .sub) (.int w s) = .sub := by cases s <;> rfl
      rw [e]
      simp only [specBin, Option.some.injEq] at hv
      exact eff_good (ternary_ok .sub (.int w s) hx hy st) ((bval_sub s hp _ _).trans (by rw [← hv, ← ga, ← gb]; rfl))
    | mul =>
      have e : opcodeFor (binCode .mul) (.int w s) = .mul := by cases s <;> rfl
      rw [e]
      simp only [specBin, Option.some.injEq] at hv
      exact eff_good (mul_ok (.int w s) hx hy st) ((bval_mul s hp _ _).trans (by rw [← hv, ← ga, ← gb]; rfl))
    | and =>
      have e : opcodeFor (binCode .and) (.int w s) = .and := by cases s <;> rfl
      rw [e]
      simp only [specBin, Option.some.injEq] at hv
      refine eff_good (ternary_ok .and (.int w s) hx hy st) ?_
      rw [← hv, ← ga, ← gb]; exact (bval_bitwise (.int w s) (· &&& ·) _ _).symm
    | or =>
      have e : opcodeFor (binCode .or) (.int w s) = .or := by cases s <;> rfl
      rw [e]
      simp only [specBin, Option.some.injEq] at hv
      refine eff_good (ternary_ok .or (.int w s) hx hy st) ?_
      rw [← hv, ← ga, ← gb]; exact (bval_bitwise (.int w s) (· ||| ·) _ _).symm
    | xor =>
      have e : opcodeFor (binCode .xor) (.int w s) = .xor := by cases s <;> rfl
      rw [e]
      simp only [specBin, Option.some.injEq] at hv
      refine eff_good (ternary_ok .xor (.int w s) hx hy st) ?_
      rw [← hv, ← ga, ← gb]; exact (bval_bitwise (.int w s) (· ^^^ ·) _ _).symm
    | div =>
      have hv' := specBin_inRange ra rb hv
      simp only [specBin] at hv
      split at hv
      · cases hv
      · rename_i hc
        simp only [Option.some.injEq] at hv
        have hb0 : b ≠ 0 := fun e => hc (.inl e)
        have hrem : InRange (.int w s) (a.tmod b) :=
          specBin_inRange (op := .rem) ra rb (by simp only [specBin]; rw [if_neg hc])
        rw [← hv] at hv'
        obtain ⟨q, m, h1, h2, h3⟩ := divX_ok (s := s) hp (low w (x.get st.regs)) (low w (y.get st.regs))
          (by rw [show bval s (low w (y.get st.regs)) = b from gb]; exact hb0)
          (by rw [show bval s (low w (y.get st.regs)) = b from gb, show bval s (low w (x.get st.regs)) = a from ga]; exact inRange_rangeN hv')
          (by rw [show bval s (low w (y.get st.regs)) = b from gb, show bval s (low w (x.get st.regs)) = a from ga]; exact inRange_rangeN hrem)
          (by rw [show bval s (low w (x.get st.regs)) = a from ga]; exact hok (.inl rfl))
        have hq : bval s q = v := by
          rw [h2, ← hv, show bval s (low w (y.get st.regs)) = b from gb, show bval s (low w (x.get st.regs)) = a from ga]
        have hf := factor_ok s false (.int w s) hx hy st h1
        cases s with
        | true => exact eff_good hf hq
        | false => exact eff_good hf hq
    | rem =>
      have hv' := specBin_inRange ra rb hv
      simp only [specBin] at hv
      split at hv
      · cases hv
      · rename_i hc
        simp only [Option.some.injEq] at hv
        have hb0 : b ≠ 0 := fun e => hc (.inl e)
        have hdiv : InRange (.int w s) (a.tdiv b) :=
          specBin_inRange (op := .div) ra rb (by simp only [specBin]; rw [if_neg hc])
        rw [← hv] at hv'
        obtain ⟨q, m, h1, h2, h3⟩ := divX_ok (s := s) hp (low w (x.get st.regs)) (low w (y.get st.regs))
          (by rw [show bval s (low w (y.get st.regs)) = b from gb]; exact hb0)
          (by rw [show bval s (low w (y.get st.regs)) = b from gb, show bval s (low w (x.get st.regs)) = a from ga]; exact inRange_rangeN hdiv)
          (by rw [show bval s (low w (y.get st.regs)) = b from gb, show bval s (low w (x.get st.regs)) = a from ga]; exact inRange_rangeN hv')
          (by rw [show bval s (low w (x.get st.regs)) = a from ga]; exact hok (.inr rfl))
        have hq : bval s m = v := by
          rw [h3, ← hv, show bval s (low w (y.get st.regs)) = b from gb, show bval s (low w (x.get st.regs)) = a from ga]
        have hf := factor_ok s true (.int w s) hx hy st h1
        cases s with
        | true => exact eff_good hf hq
        | false => exact eff_good hf hq
    | shl =>
      have e : opcodeFor (binCode .shl) (.int w s) = .ushl := by cases s <;> rfl
      rw [e]
      simp only [specBin] at hv
      split at hv
      · rename_i hc
        simp only [Option.some.injEq] at hv
        refine eff_good (shift_ok .sal (.int w s) hx (b := y) st) ?_
        have hcnt : shCount w (put w (st.regs rcx) (low w (y.get st.regs))) = b.toNat := shCount_ok (w := w) (s := s) _ _ gb hc.1 hc.2
        dsimp only [Kind.width]
        rw [hcnt]
        exact (bval_shl s hp _ _).trans (by rw [← hv, ← ga]; rfl)
      · cases hv
    | shr =>
      simp only [specBin] at hv
      split at hv
      · rename_i hc
        simp only [Option.some.injEq] at hv
        have hcnt : shCount w (put w (st.regs rcx) (low w (y.get st.regs))) = b.toNat := shCount_ok (w := w) (s := s) _ _ gb hc.1 hc.2
        cases s with
        | true =>
          refine eff_good (shift_ok .sar (.int w true) hx (b := y) st) ?_
          dsimp only [Kind.width]
          rw [hcnt]
          exact (bval_shr_s _ _).trans (by rw [← hv, ← ga]; rfl)
        | false =>
          refine eff_good (shift_ok .shr (.int w false) hx (b := y) st) ?_
          dsimp only [Kind.width]
          rw [hcnt]
          exact (bval_shr_u _ _).trans (by rw [← hv, ← ga]; rfl)
      · cases hv
  cmp op k x y n st a b ea eb hx hy ga gb _ ra rb _ := by
    have ga := good_iff.mp ga
    have gb := good_iff.mp gb
    have fin : ∀ cc : CC, holds (cmpFlags (low k.width (x.get st.regs)) (low k.width (y.get st.regs))) cc = specCmp op a b →
        ∃ st', run (scc cc k x y (.t n)) st = some st' ∧
        Good rules true .bool (st'.regs (.t n)) (if specCmp op a b then 1 else 0) ∧ Frame n st st' := by
      intro cc hcc
      refine eff_good (k := .bool) (scc_ok cc k hx hy st) ?_
      rw [hcc]
      cases specCmp op a b <;> rfl
    have sel : ∀ c, setcc c = some (ccOf c) → run (select ⟨c, x, y, .t n, .bool, k⟩) st = run (scc (ccOf c) k x y (.t n)) st := by
      intro c hc
      cases c <;> first | rfl | cases hc
    simp only [exec]
    cases k with
    | int w s =>
      cases s with
      | true =>
        have e : opcodeFor (cmpCode op) (.int w true) = cmpCode op := rfl
        rw [e, sel _ (by cases op <;> rfl)]
        exact fin _ ((holds_s (bits_pos w) op _ _).trans (by rw [← ga, ← gb]; rfl))
      | false =>
        have e : opcodeFor (cmpCode op) (.int w false) = toUnsigned (cmpCode op) := rfl
        rw [e, sel _ (by cases op <;> rfl)]
        exact fin _ ((holds_u op _ _).trans (by rw [← ga, ← gb]; rfl))
    | bool =>
      have e : opcodeFor (cmpCode op) .bool = cmpCode op := rfl
      rw [e, sel _ (by cases op <;> rfl)]
      have small : ∀ z : BitVec 8, ∀ c : Int, bval false z = c → InRange .bool c → bval true z = c := by
        intro z c hz hc
        have : z = BitVec.ofInt 8 c := by rw [← hz, ofInt_bval]
        rcases hc with h | h <;> subst h <;> subst this <;> decide
      have ga' := small _ _ ga ra
      have gb' := small _ _ gb rb
      exact fin _ ((holds_s (by decide) op _ _).trans (congr (congrArg (specCmp op) ga') gb'))
  neg w s x n st a ea hx ga := by
    have ga := good_iff.mp ga
    exact eff_good (one_ok .neg (fun _ v => -v) (.int w s) (fun _ _ _ => rfl) st)
      ((bval_neg s (bits_pos w) _).trans (by rw [← ga]; rfl))
  bnot w s x n st a ea hx ga := by
    have ga := good_iff.mp ga
    exact eff_good (one_ok .not (fun _ v => ~~~v) (.int w s) (fun _ _ _ => rfl) st)
      ((bval_not s (bits_pos w) _).trans (by rw [← ga]; rfl))
  not r n st a ea hx ga h01 := by
    have ga := good_iff.mp ga
    refine eff_good (ternary_ok .xor .bool hx (show Src n (.imm 1) from trivial) st) ?_
    have e : low .w8 (st.regs r) = BitVec.ofInt 8 a := by rw [← ga]; exact (ofInt_bval false _).symm
    show bval false (low .w8 (st.regs r) ^^^ low .w8 1) = 1 - a
    rw [e]
    rcases h01 with h | h <;> subst h <;> decide
  cast k w s x n st a ea hk hx ga hok ra := by
    have ga := good_iff.mp ga
    simp only [exec]
    cases k with
    | bool =>
      have hw : Width.bits .w8 < w.bits := by
        have := hok rfl
        cases w <;> first | exact absurd rfl this | decide
      exact eff_good (ext_ok false (.int w s) .bool hw hx st) ((ext_val false (by decide) hw _ _).trans (by rw [← ga]; rfl))
    | int w' s' =>
      by_cases h1 : w'.bits < w.bits
      · have e : castCode (.int w' s') (.int w s) = if s' then .sext else .uext := by simp only [castCode]; exact if_pos h1
        rw [e]
        have hv : bval s (if s' then (low w' (x.get st.regs)).signExtend w.bits else (low w' (x.get st.regs)).setWidth w.bits) = wrap (.int w s) a :=
          (ext_val s' (bits_pos w') h1 _ _).trans (by rw [← ga]; rfl)
        have hf := ext_ok s' (.int w s) (.int w' s') h1 hx st
        cases s' with
        | true => exact eff_good hf hv
        | false => exact eff_good hf hv
      · by_cases h2 : w.bits < w'.bits
        · have e : castCode (.int w' s') (.int w s) = .trunc := by
            simp only [castCode]; exact (if_neg h1).trans (if_pos h2)
          rw [e]
          exact eff_good (trunc_ok (.int w s) (.int w' s') (Nat.le_of_lt h2) hx st)
            ((trunc_val s' s (bits_pos w) (Nat.le_of_lt h2) _).trans (by rw [← ga]; rfl))
        · have e : castCode (.int w' s') (.int w s) = .move := by
            simp only [castCode]; exact (if_neg h1).trans (if_neg h2)
          rw [e]
          have hw : w' = w := by
            have : w'.bits = w.bits := by omega
            cases w <;> cases w' <;> first | rfl | (simp only [Width.bits] at this; omega)
          subst hw
          have : Eff n w' (low w' (x.get st.regs)) st (run [.mov w' (.t n) x] st) := by
            simp only [run, step, Option.bind_some, setReg]
            refine ⟨_, rfl, ?_, by frames⟩
            simp only [upd_self, low_put]
          refine eff_good (k := .int w' s) this ?_
          have h := trunc_val s' s (bits_pos w') (Nat.le_refl w'.bits) (low w' (x.get st.regs))
          rw [BitVec.setWidth_eq] at h
          exact h.trans (by rw [← ga]; rfl)

end Nature.Arith.Amd64
