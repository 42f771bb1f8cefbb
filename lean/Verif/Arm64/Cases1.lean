import Verif.Arm64.Fields
/-! Moves, arithmetic and logic. -/
namespace Nature.Arm64
variable {M : Fpu}

/-- Which entry of the table fits. -/
macro "mt" : tactic => `(tactic| simp [matchOp, instOf, dest, Alu.raw, AluI.raw, Ext.raw, Ld.raw, Sd.raw, F2.raw, F3.raw, Addr.op, table,
  fits, Operand.flag, R32, R64, F32, F64, RSP, IMM, IND, ROI, SYM, CND, SFT, EXT])

macro "k4" t:term : term => `(word4 (t := $t) rfl (by decide) (by decide) (num_lt _) (by decide) (num_lt _) (num_lt _))
macro "k3" t:term ";" x:term : term => `(word3 (t := $t) (x := $x) rfl (by decide) (by decide) (by decide) (num_lt _) (num_lt _) (num_lt _))
macro "k2" t:term ";" m:term ";" x:term : term =>
  `(word2 (t := $t) (rm := $m) (x := $x) rfl (by decide) (by decide) (by decide) (by decide) (num_lt _) (num_lt _))

/-! ### Register forms -/

/-- With two small numbers between the registers. -/
theorem wordE {c y z k t rm x rn rd : Nat} (hc : c = t <<< 21 ||| k <<< 10) (hy : k <<< 10 ||| y ||| z = x <<< 10) (t0 : t ≠ 0)
    (t1 : t < 2048) (m1 : rm < 32) (x1 : x < 64) (n1 : rn < 32) (d1 : rd < 32) :
    Word (c ||| rm <<< 16 ||| y ||| z ||| rn <<< 5 ||| rd) t rm x rn rd := by
  refine ⟨?_, t0, t1, m1, x1, n1, d1⟩
  have h : ∀ a b d e f g h : Nat, (a ||| b) ||| d ||| e ||| f ||| g ||| h = a ||| d ||| (b ||| e ||| f) ||| g ||| h := by
    intros
    ac_rfl
  rw [hc, h, hy]
  rfl

theorem alu3_good {q : Bool} {op : Alu} {d a b : R} (hp : op ≠ .add ∧ op ≠ .sub) (hd : d ≠ .sp) (ha : a ≠ .sp) (hb : b ≠ .sp) :
    Good M (.alu op q d a b) := by
  have hz : ∀ s : St, s.zr q a.num = a.val s q := fun s => zr_num s q ha
  have hy : ∀ s : St, s.zr q b.num = b.val s q := fun s => zr_num s q hb
  have hw : ∀ (s : St) (v : BitVec (wd q)), s.putz d.num v = d.put s v := fun s v => putz_num s v hd
  cases op with
  | add => exact absurd rfl hp.1
  | sub => exact absurd rfl hp.2
  | mul =>
    have e : ∀ s, exec M (.dp3 false q b.num 31 a.num d.num) s = effect M (.alu .mul q d a b) s := by
      intro s
      simp only [exec, effect, sum, aluVal, zr_31, hz, hy, hw]
      simp
    cases q
    · exact good (op := .same) (k4 0x0d8) (by mt) rfl rfl e
    · exact good (op := .same) (k4 0x4d8) (by mt) rfl rfl e
  | sdiv =>
    have e : ∀ s, exec M (.dp2 .sdiv q b.num a.num d.num) s = effect M (.alu .sdiv q d a b) s := by
      intro s
      simp only [exec, effect, aluVal, hz, hy, hw]
    cases q
    · exact good (op := .same) (k3 0x0d6; 3) (by mt) rfl rfl e
    · exact good (op := .same) (k3 0x4d6; 3) (by mt) rfl rfl e
  | udiv =>
    have e : ∀ s, exec M (.dp2 .udiv q b.num a.num d.num) s = effect M (.alu .udiv q d a b) s := by
      intro s
      simp only [exec, effect, aluVal, hz, hy, hw]
    cases q
    · exact good (op := .same) (k3 0x0d6; 2) (by mt) rfl rfl e
    · exact good (op := .same) (k3 0x4d6; 2) (by mt) rfl rfl e
  | lsl =>
    have e : ∀ s, exec M (.dp2 .lslv q b.num a.num d.num) s = effect M (.alu .lsl q d a b) s := by
      intro s
      simp only [exec, effect, aluVal, hz, hy, hw]
    cases q
    · exact good (op := .r) (k3 0x0d6; 8) (by mt) rfl rfl e
    · exact good (op := .r) (k3 0x4d6; 8) (by mt) rfl rfl e
  | lsr =>
    have e : ∀ s, exec M (.dp2 .lsrv q b.num a.num d.num) s = effect M (.alu .lsr q d a b) s := by
      intro s
      simp only [exec, effect, aluVal, hz, hy, hw]
    cases q
    · exact good (op := .r) (k3 0x0d6; 9) (by mt) rfl rfl e
    · exact good (op := .r) (k3 0x4d6; 9) (by mt) rfl rfl e
  | asr =>
    have e : ∀ s, exec M (.dp2 .asrv q b.num a.num d.num) s = effect M (.alu .asr q d a b) s := by
      intro s
      simp only [exec, effect, aluVal, hz, hy, hw]
    cases q
    · exact good (op := .r) (k3 0x0d6; 10) (by mt) rfl rfl e
    · exact good (op := .r) (k3 0x4d6; 10) (by mt) rfl rfl e
  | and =>
    have e : ∀ s, exec M (.logic .and false q .lsl 0 b.num a.num d.num) s = effect M (.alu .and q d a b) s := by
      intro s
      simp only [exec, effect, aluVal, shiftBy, hz, hy, hw]
      simp
    cases q
    · exact good (op := .same) (k4 0x050) (by mt) rfl rfl e
    · exact good (op := .same) (k4 0x450) (by mt) rfl rfl e
  | orr =>
    have e : ∀ s, exec M (.logic .orr false q .lsl 0 b.num a.num d.num) s = effect M (.alu .orr q d a b) s := by
      intro s
      simp only [exec, effect, aluVal, shiftBy, hz, hy, hw]
      simp
    cases q
    · exact good (op := .same) (k4 0x150) (by mt) rfl rfl e
    · exact good (op := .same) (k4 0x550) (by mt) rfl rfl e
  | eor =>
    have e : ∀ s, exec M (.logic .eor false q .lsl 0 b.num a.num d.num) s = effect M (.alu .eor q d a b) s := by
      intro s
      simp only [exec, effect, aluVal, shiftBy, hz, hy, hw]
      simp
    cases q
    · exact good (op := .same) (k4 0x250) (by mt) rfl rfl e
    · exact good (op := .same) (k4 0x650) (by mt) rfl rfl e
  | eon =>
    have e : ∀ s, exec M (.logic .eor true q .lsl 0 b.num a.num d.num) s = effect M (.alu .eon q d a b) s := by
      intro s
      simp only [exec, effect, aluVal, shiftBy, hz, hy, hw]
      simp
    cases q
    · exact good (op := .same) (k4 0x251) (by mt) rfl rfl e
    · exact good (op := .same) (k4 0x651) (by mt) rfl rfl e

theorem isSp_false {r : R} (h : r ≠ .sp) : r.isSp = false := by
  cases r <;> first | rfl | exact absurd rfl h

macro "kE" t:term ";" x:term : term =>
  `(wordE (t := $t) (x := $x) (k := 0) rfl (by decide) (by decide) (by decide) (num_lt _) (by decide) (num_lt _) (num_lt _))

/-- What the handler returns. -/
macro "hn" l:ident* : tactic => do
  let ls := l.map fun x => x
  `(tactic| simp [instOf, dest, Alu.raw, AluI.raw, Ext.raw, Ld.raw, Sd.raw, F2.raw, F3.raw, Addr.op, handle, asm3r, asmAddR, asm2ri, asm2riWord, asm2r, asmRi, asmMov,
    asmMovk, asm4r, asmLdrstr, ldNum, stNum, scaled, prePost, asmLdpstp, target, asmB, asmCb, asmFLdrstr, asmFLdpstp, bit, $[$ls:ident],*])

/-- Additions without the stack pointer. -/
theorem addz_good {sub q : Bool} {d a b : R} (hd : d ≠ .sp) (ha : a ≠ .sp) (hb : b ≠ .sp) :
    Good M (.alu (if sub then .sub else .add) q d a b) := by
  have e : ∀ s, exec M (.addsubs sub false q .lsl 0 b.num a.num d.num) s = effect M (.alu (if sub then .sub else .add) q d a b) s := by
    intro s
    have hw : ∀ (s : St) (v : BitVec (wd q)), s.putz d.num v = d.put s v := fun s v => putz_num s v hd
    cases sub <;> simp [exec, effect, addsub, sum, shiftBy, zr_num s q ha, zr_num s q hb, hw, aluVal]
  have i1 := isSp_false hd
  have i2 := isSp_false ha
  cases sub <;> cases q
  · exact good (op := .r) (w := W_ADD_S 0 d.num a.num b.num 0 0) (k4 0x058) (by mt) (by hn i1 i2) rfl e
  · exact good (op := .r) (w := W_ADD_S 1 d.num a.num b.num 0 0) (k4 0x458) (by mt) (by hn i1 i2) rfl e
  · exact good (op := .r) (w := W_SUB_S 0 d.num a.num b.num 0 0) (k4 0x258) (by mt) (by hn i1 i2) rfl e
  · exact good (op := .r) (w := W_SUB_S 1 d.num a.num b.num 0 0) (k4 0x658) (by mt) (by hn i1 i2) rfl e

/-- With it: then neither is the zero register, and the width is 64. -/
theorem adds_good {sub : Bool} {d a b : R} (hs : d = .sp ∨ a = .sp) (hd : d ≠ .zr) (ha : a ≠ .zr) (hb : b ≠ .sp) :
    Good M (.alu (if sub then .sub else .add) true d a b) := by
  have e : ∀ s, exec M (.addsube sub false true 3 0 b.num a.num d.num) s = effect M (.alu (if sub then .sub else .add) true d a b) s := by
    intro s
    have hw : ∀ (s : St) (v : BitVec (wd true)), s.puts d.num v = d.put s v := fun s v => puts_num s v hd
    have hx : s.sr true a.num = a.val s true := sr_num s _ ha
    cases sub <;> simp [exec, effect, sum, extend, hx, xz_num s hb, hw, aluVal, R.val]
  have i : d.isSp = true ∨ a.isSp = true := by
    rcases hs with rfl | rfl
    · exact .inl rfl
    · exact .inr rfl
  cases sub
  · refine good (op := .r) (w := W_ADD_E 1 d.num a.num b.num 3 0) (kE 0x459; 24) (by mt) ?_ rfl e
    rcases i with i | i <;> hn i
  · refine good (op := .r) (w := W_SUB_E 1 d.num a.num b.num 3 0) (kE 0x659; 24) (by mt) ?_ rfl e
    rcases i with i | i <;> hn i

end Nature.Arm64
