import Verif.Arith.Bits
import Verif.Arith.Main
/-
Operations on registers wider than the type: when the value of the type is right, and when the whole register is.
-/
namespace Nature.Arith

section
variable {s : Bool} {n N : Nat}

theorem low_add (hn : 0 < n) (h : n ≤ N) {X Y : BitVec N} {a b : Int} (hx : bval s (X.setWidth n) = a) (hy : bval s (Y.setWidth n) = b) :
    bval s ((X + Y).setWidth n) = wrapN s n (a + b) := by
  rw [BitVec.setWidth_add _ _ h, bval_add s hn, hx, hy]

theorem low_mul (hn : 0 < n) (h : n ≤ N) {X Y : BitVec N} {a b : Int} (hx : bval s (X.setWidth n) = a) (hy : bval s (Y.setWidth n) = b) :
    bval s ((X * Y).setWidth n) = wrapN s n (a * b) := by
  rw [BitVec.setWidth_mul _ _ h, bval_mul s hn, hx, hy]

theorem setWidth_neg' (h : n ≤ N) (X : BitVec N) : (-X).setWidth n = -(X.setWidth n) := by
  have e := ofInt_bval true X
  rw [← e, ← BitVec.ofInt_neg, ofInt_setWidth h, ofInt_setWidth h, BitVec.ofInt_neg]

theorem low_neg (hn : 0 < n) (h : n ≤ N) {X : BitVec N} {a : Int} (hx : bval s (X.setWidth n) = a) :
    bval s ((-X).setWidth n) = wrapN s n (-a) := by
  rw [setWidth_neg' h, bval_neg s hn, hx]

theorem low_sub (hn : 0 < n) (h : n ≤ N) {X Y : BitVec N} {a b : Int} (hx : bval s (X.setWidth n) = a) (hy : bval s (Y.setWidth n) = b) :
    bval s ((X - Y).setWidth n) = wrapN s n (a - b) := by
  rw [BitVec.sub_eq_add_neg, BitVec.setWidth_add _ _ h, setWidth_neg' h, ← BitVec.sub_eq_add_neg, bval_sub s hn, hx, hy]

theorem low_not (hn : 0 < n) (h : n ≤ N) {X : BitVec N} {a : Int} (hx : bval s (X.setWidth n) = a) :
    bval s ((~~~X).setWidth n) = wrapN s n (-a - 1) := by
  rw [BitVec.setWidth_not h, bval_not s hn, hx]

theorem low_shl (hn : 0 < n) (h : n ≤ N) {X : BitVec N} {a : Int} (m : Nat) (hx : bval s (X.setWidth n) = a) :
    bval s ((X <<< m).setWidth n) = wrapN s n (a * 2 ^ m) := by
  have : (X <<< m).setWidth n = X.setWidth n <<< m := by
    rw [BitVec.shiftLeft_eq_mul_twoPow, BitVec.shiftLeft_eq_mul_twoPow, BitVec.setWidth_mul _ _ h]
    congr 1
    apply BitVec.eq_of_toNat_eq
    rw [BitVec.toNat_setWidth, BitVec.toNat_twoPow, BitVec.toNat_twoPow]
    exact Nat.mod_mod_of_dvd _ (Nat.pow_dvd_pow 2 h)
  rw [this, bval_shl s hn, hx]

/-- A register that represents a value of the narrower type with all its bits is the extension of its low bits. -/
theorem exact_ext (hn : 0 < n) (h : n ≤ N) {X : BitVec N} {a : Int} (hx : bval s X = a) (ha : RangeN s n a) :
    X = if s then (X.setWidth n).signExtend N else (X.setWidth n).setWidth N := by
  have hl : bval s (X.setWidth n) = a := bval_narrow hn h hx ha
  have hN : 0 < N := by omega
  cases s with
  | true =>
    simp only [if_true]
    rw [BitVec.signExtend, show (X.setWidth n).toInt = a from hl, ← hx, ofInt_bval]
  | false =>
    simp only [Bool.false_eq_true, if_false]
    apply BitVec.eq_of_toNat_eq
    have : ((X.setWidth n).toNat : Int) = X.toNat := hl.trans hx.symm
    rw [BitVec.toNat_setWidth, Int.ofNat.inj this, Nat.mod_eq_of_lt X.isLt]

theorem ext_value (h : n ≤ N) (x : BitVec n) : bval s (if s then x.signExtend N else x.setWidth N) = bval s x := by
  cases s with
  | true => simp only [if_true, bval]; exact BitVec.toInt_signExtend_of_le h
  | false =>
    simp only [Bool.false_eq_true, if_false, bval, BitVec.toNat_setWidth]
    rw [Nat.mod_eq_of_lt (Nat.lt_of_lt_of_le x.isLt (Nat.pow_le_pow_right (by decide) h))]

theorem ext_and (x y : BitVec n) :
    (if s then x.signExtend N else x.setWidth N) &&& (if s then y.signExtend N else y.setWidth N) =
      if s then (x &&& y).signExtend N else (x &&& y).setWidth N := by
  cases s <;> simp

theorem ext_or (x y : BitVec n) :
    (if s then x.signExtend N else x.setWidth N) ||| (if s then y.signExtend N else y.setWidth N) =
      if s then (x ||| y).signExtend N else (x ||| y).setWidth N := by
  cases s <;> simp

theorem ext_xor (x y : BitVec n) :
    (if s then x.signExtend N else x.setWidth N) ^^^ (if s then y.signExtend N else y.setWidth N) =
      if s then (x ^^^ y).signExtend N else (x ^^^ y).setWidth N := by
  cases s <;> simp

theorem full_and (hn : 0 < n) (h : n ≤ N) {X Y : BitVec N} {a b : Int} (hx : bval s X = a) (hy : bval s Y = b) (ha : RangeN s n a)
    (hb : RangeN s n b) : bval s (X &&& Y) = bval s ((X &&& Y).setWidth n) := by
  have xa := exact_ext hn h hx ha
  have xb := exact_ext hn h hy hb
  rw [BitVec.setWidth_and, ← ext_value (s := s) (N := N) h, ← ext_and, ← xa, ← xb]

theorem full_or (hn : 0 < n) (h : n ≤ N) {X Y : BitVec N} {a b : Int} (hx : bval s X = a) (hy : bval s Y = b) (ha : RangeN s n a)
    (hb : RangeN s n b) : bval s (X ||| Y) = bval s ((X ||| Y).setWidth n) := by
  have xa := exact_ext hn h hx ha
  have xb := exact_ext hn h hy hb
  rw [BitVec.setWidth_or, ← ext_value (s := s) (N := N) h, ← ext_or, ← xa, ← xb]

theorem full_xor (hn : 0 < n) (h : n ≤ N) {X Y : BitVec N} {a b : Int} (hx : bval s X = a) (hy : bval s Y = b) (ha : RangeN s n a)
    (hb : RangeN s n b) : bval s (X ^^^ Y) = bval s ((X ^^^ Y).setWidth n) := by
  have xa := exact_ext hn h hx ha
  have xb := exact_ext hn h hy hb
  rw [BitVec.setWidth_xor, ← ext_value (s := s) (N := N) h, ← ext_xor, ← xa, ← xb]

theorem full_div (hn : 0 < n) (h : n ≤ N) {X Y : BitVec N} {a b : Int} (hx : bval s X = a) (hy : bval s Y = b)
    (hr : RangeN s n (a.tdiv b)) :
    bval s (if s then BitVec.ofInt N (X.toInt.tdiv Y.toInt) else BitVec.ofNat N (X.toNat / Y.toNat)) = a.tdiv b := by
  have hr' := rangeN_mono hn h hr
  have hN : 0 < N := by omega
  cases s with
  | true =>
    simp only [if_true]
    rw [bval_ofInt true hN, show X.toInt = a from hx, show Y.toInt = b from hy, wrapN_range hN hr']
  | false =>
    simp only [Bool.false_eq_true, if_false]
    have e : BitVec.ofNat N (X.toNat / Y.toNat) = BitVec.ofInt N ((X.toNat : Int).tdiv Y.toNat) := by
      rw [← BitVec.ofInt_natCast]; rfl
    rw [e, bval_ofInt false hN, show (X.toNat : Int) = a from hx, show (Y.toNat : Int) = b from hy, wrapN_range hN hr']

theorem full_rem (hn : 0 < n) (h : n ≤ N) {X Y : BitVec N} {a b : Int} (hx : bval s X = a) (hy : bval s Y = b)
    (hr : RangeN s n (a.tmod b)) :
    bval s (if s then BitVec.ofInt N (X.toInt.tmod Y.toInt) else BitVec.ofNat N (X.toNat % Y.toNat)) = a.tmod b := by
  have hr' := rangeN_mono hn h hr
  have hN : 0 < N := by omega
  cases s with
  | true =>
    simp only [if_true]
    rw [bval_ofInt true hN, show X.toInt = a from hx, show Y.toInt = b from hy, wrapN_range hN hr']
  | false =>
    simp only [Bool.false_eq_true, if_false]
    have e : BitVec.ofNat N (X.toNat % Y.toNat) = BitVec.ofInt N ((X.toNat : Int).tmod Y.toNat) := by
      rw [← BitVec.ofInt_natCast]; rfl
    rw [e, bval_ofInt false hN, show (X.toNat : Int) = a from hx, show (Y.toNat : Int) = b from hy, wrapN_range hN hr']

theorem full_shr {X : BitVec N} {a : Int} (m : Nat) (hx : bval s X = a) :
    bval s (if s then X.sshiftRight m else X >>> m) = a / 2 ^ m := by
  cases s with
  | true => simp only [if_true]; rw [bval_shr_s, hx]
  | false => simp only [Bool.false_eq_true, if_false]; rw [bval_shr_u, hx]

theorem full_not (hn : 0 < n) (h : n ≤ N) {X : BitVec N} {a : Int} (hx : bval true X = a) (ha : RangeN true n a) :
    bval true (~~~X) = wrapN true n (-a - 1) := by
  have hr : RangeN true n (-a - 1) := by simp only [RangeN] at ha ⊢; omega
  have hN : 0 < N := by omega
  rw [bval_not true hN, hx, wrapN_range hN (rangeN_mono hn h hr), wrapN_range hn hr]

end

/-- The register is the value: a conversion to a wider type is right, and fills the register if its value is one of the new type. -/
theorem cast_val {n : Nat} (hn : 0 < n) (hn' : n ≤ 64) {N : Nat} (hN : n ≤ N) (hN' : N ≤ 64) (s : Bool) {Z : BitVec 64} {a : Int}
    (hZ : Z.setWidth N = BitVec.ofInt N a) :
    bval s (Z.setWidth n) = wrapN s n a ∧ (RangeN s n a → bval s (Z.setWidth N) = wrapN s n a) := by
  constructor
  · rw [← setWidth_setWidth hN, hZ, ofInt_setWidth hN, bval_ofInt s hn]
  · intro hr
    rw [hZ, bval_ofInt s (by omega), wrapN_range (by omega) (rangeN_mono hn hN hr), wrapN_range hn hr]

/-- An extension keeps the value in the range of the new type, unless it is negative and the new type unsigned. -/
theorem range_ext {n m : Nat} (hn : 0 < n) (h : n < m) {s t : Bool} {a : Int} (ha : RangeN s n a) (hst : s = false ∨ t = true) : RangeN t m a := by
  cases t with
  | false =>
    have : s = false := hst.resolve_right (by simp)
    subst this
    exact rangeN_mono hn (Nat.le_of_lt h) ha
  | true =>
    cases s with
    | true => exact rangeN_mono hn (Nat.le_of_lt h) ha
    | false =>
      have h2 : (2 : Int) ^ n ≤ 2 ^ (m - 1) := pow_le_pow (by omega)
      simp only [RangeN] at ha ⊢
      omega

theorem mask_eq (n : Nat) (hn : n ≤ 64) (X : BitVec 64) : X &&& BitVec.ofNat 64 (2 ^ n - 1) = (X.setWidth n).setWidth 64 := by
  have hp : 2 ^ n ≤ 2 ^ 64 := Nat.pow_le_pow_right (by decide) hn
  have hq : 0 < 2 ^ n := Nat.pow_pos (by decide)
  apply BitVec.eq_of_toNat_eq
  rw [BitVec.toNat_and, BitVec.toNat_ofNat, BitVec.toNat_setWidth, BitVec.toNat_setWidth, Nat.mod_eq_of_lt (by omega),
    Nat.and_two_pow_sub_one_eq_mod]
  have : X.toNat % 2 ^ n < 2 ^ n := Nat.mod_lt _ hq
  rw [Nat.mod_eq_of_lt (a := X.toNat % 2 ^ n) (by omega)]

/-- The shift count: the low bits of the register. -/
theorem count_low {s : Bool} {n j : Nat} (hj : 2 ^ j ≤ 2 ^ n) {Y : BitVec 64} (hn : n ≤ 64) {b : Int} (hy : bval s (Y.setWidth n) = b) (h0 : 0 ≤ b) (hb : b < 2 ^ j) :
    Y.toNat % 2 ^ j = b.toNat := by
  have e : (Y.setWidth n).toNat = b.toNat := by
    cases s with
    | true =>
      simp only [bval, if_true] at hy
      have h := BitVec.toInt_eq_toNat_cond (Y.setWidth n)
      have hl := (Y.setWidth n).isLt
      split at h <;> omega
    | false =>
      simp only [bval, Bool.false_eq_true, if_false] at hy
      omega
  rw [BitVec.toNat_setWidth] at e
  have hjn : j ≤ n := (Nat.pow_le_pow_iff_right (by decide)).mp hj
  have : Y.toNat % 2 ^ j = (Y.toNat % 2 ^ n) % 2 ^ j := (Nat.mod_mod_of_dvd _ (Nat.pow_dvd_pow 2 hjn)).symm
  rw [this, e]
  apply Nat.mod_eq_of_lt
  have : ((b.toNat : Nat) : Int) = b := Int.toNat_of_nonneg h0
  have hc : (((2 : Nat) ^ j : Nat) : Int) = 2 ^ j := by simp
  omega

/-- The operation on the bits of a register; `m` is the count of a shift. -/
def binN (op : BinOp) (s : Bool) {N : Nat} (X Y : BitVec N) (m : Nat) : BitVec N :=
  match op with
  | .add => X + Y
  | .sub => X - Y
  | .mul => X * Y
  | .div => if s then BitVec.ofInt N (X.toInt.tdiv Y.toInt) else BitVec.ofNat N (X.toNat / Y.toNat)
  | .rem => if s then BitVec.ofInt N (X.toInt.tmod Y.toInt) else BitVec.ofNat N (X.toNat % Y.toNat)
  | .and => X &&& Y
  | .or => X ||| Y
  | .xor => X ^^^ Y
  | .shl => X <<< m
  | .shr => if s then X.sshiftRight m else X >>> m

/-- Comparison opcodes are the signed ones for `bool`. -/
def sgOf : Kind → Bool
  | .int _ s => s
  | .bool => true

/-- What is shown of each operation of such a target. -/
structure WCorrect (native : Width → Nat) (okb : BinOp → Width → Option (BitVec 64) → Prop)
    (okc : CmpOp → Kind → Option (BitVec 64) → Prop) (exCast : Kind → Width → Bool → Bool → Bool)
    (okCast : Kind → Width → Bool → Bool → Prop) (exec : Lir → St → Option St) : Prop where
  native_le : ∀ w, w.bits ≤ native w ∧ native w ≤ 64
  bin : ∀ op w s x y n st m, Src n x → Src n y → okb op w y.lit? → (y.get st.regs).setWidth (native w) ≠ 0 ∨ (op ≠ .div ∧ op ≠ .rem) →
    ((op = .shl ∨ op = .shr) → m < w.bits ∧ (y.get st.regs).toNat % 256 = m ∧ ∀ u, y = .imm u → u.toNat = m) →
    ∃ st', exec ⟨opcodeFor (binCode op) (.int w s), x, y, .t n, .int w s, .int w s⟩ st = some st' ∧
      (st'.regs (.t n)).setWidth (native w) = binN op s ((x.get st.regs).setWidth (native w)) ((y.get st.regs).setWidth (native w)) m ∧
      Frame n st st'
  cmp : ∀ op k x y n st, Src n x → Src n y → okc op k y.lit? → (∀ u, y = .imm u → ∃ b, InRange k b ∧ u = BitVec.ofInt 64 b) →
    ∃ st', exec ⟨opcodeFor (cmpCode op) k, x, y, .t n, .bool, k⟩ st = some st' ∧
      st'.regs (.t n) = (if specCmp op (bval (sgOf k) ((x.get st.regs).setWidth (native k.width)))
        (bval (sgOf k) ((y.get st.regs).setWidth (native k.width))) then 1 else 0) ∧ Frame n st st'
  neg : ∀ w s x n st, Src n x →
    ∃ st', exec ⟨.neg, x, x, .t n, .int w s, .int w s⟩ st = some st' ∧
      (st'.regs (.t n)).setWidth (native w) = -((x.get st.regs).setWidth (native w)) ∧ Frame n st st'
  bnot : ∀ w s x n st, Src n x →
    ∃ st', exec ⟨.not, x, x, .t n, .int w s, .int w s⟩ st = some st' ∧
      (st'.regs (.t n)).setWidth (native w) = ~~~((x.get st.regs).setWidth (native w)) ∧ Frame n st st'
  not : ∀ r n st, Src n (.reg r) →
    ∃ st', exec ⟨.xor, .reg r, .imm 1, .t n, .bool, .bool⟩ st = some st' ∧
      (st'.regs (.t n)).setWidth (native .w8) = (st.regs r).setWidth (native .w8) ^^^ 1 ∧ Frame n st st'
  cast : ∀ k w s x n st a ea, k ≠ .int w s → Src n x →
    Good (.wide native okb okc exCast okCast) ea k (x.get st.regs) a → okCast k w s ea → InRange k a →
    ∃ st', exec ⟨castCode k (.int w s), x, x, .t n, .int w s, k⟩ st = some st' ∧
      bval s ((st'.regs (.t n)).setWidth w.bits) = wrapN s w.bits a ∧
      (exCast k w s ea = true → bval s ((st'.regs (.t n)).setWidth (native w)) = wrapN s w.bits a) ∧ Frame n st st'

section
variable {native : Width → Nat} {okb : BinOp → Width → Option (BitVec 64) → Prop}
    {okc : CmpOp → Kind → Option (BitVec 64) → Prop} {exCast : Kind → Width → Bool → Bool → Bool}
    {okCast : Kind → Width → Bool → Bool → Prop} {exec : Lir → St → Option St}

theorem good_mk {T : Rules} {k : Kind} {e : Bool} {z : BitVec 64} {v : Int} (hle : T.native k.width ≤ 64) (hn : k.bits ≤ T.native k.width)
    (h1 : bval k.signed (((z.setWidth (T.native k.width))).setWidth k.bits) = v)
    (h2 : e = true → bval k.signed (z.setWidth (T.native k.width)) = v) : Good T e k z v :=
  ⟨by rw [setWidth_setWidth hn] at h1; exact h1, h2⟩

/-- The register of an exact value, as a register of the native width. -/
theorem good_full {T : Rules} {k : Kind} {e : Bool} {z : BitVec 64} {v : Int} (h : Good T e k z v)
    (hf : T.native k.width = k.bits ∨ e = true) : bval k.signed (z.setWidth (T.native k.width)) = v := by
  rcases hf with hf | hf
  · rw [hf]; exact h.1
  · exact h.2 hf

theorem good_low {T : Rules} {k : Kind} {e : Bool} {z : BitVec 64} {v : Int} (h : Good T e k z v) (hn : k.bits ≤ T.native k.width) :
    bval k.signed ((z.setWidth (T.native k.width)).setWidth k.bits) = v := by
  rw [setWidth_setWidth hn]; exact h.1

theorem WCorrect.correct (W : WCorrect native okb okc exCast okCast exec) : Correct (.wide native okb okc exCast okCast) exec where
  native_le := W.native_le
  bin op w s x y n st a b v ea eb ra rb hx hy ga gb hok hlit hv := by
    have hn := bits_pos w
    have hN := W.native_le w
    have la : bval s (((x.get st.regs).setWidth (native w)).setWidth w.bits) = a := good_low ga hN.1
    have lb : bval s (((y.get st.regs).setWidth (native w)).setWidth w.bits) = b := good_low gb hN.1
    have hv' := specBin_inRange ra rb hv
    have nz : (y.get st.regs).setWidth (native w) ≠ 0 ∨ (op ≠ .div ∧ op ≠ .rem) := by
      by_cases h : op = .div ∨ op = .rem
      · left
        intro e
        rw [e] at lb
        have hb : b = 0 := by rw [← lb]; cases s <;> simp [bval]
        rcases h with h | h <;> subst h <;> simp [specBin, hb] at hv
      · right; exact ⟨fun e => h (.inl e), fun e => h (.inr e)⟩
    have cnt : (op = .shl ∨ op = .shr) → b.toNat < w.bits ∧ (y.get st.regs).toNat % 256 = b.toNat ∧ ∀ u, y = .imm u → u.toNat = b.toNat := by
      intro h
      have hb : 0 ≤ b ∧ b < w.bits := by
        rcases h with h | h <;> subst h <;> (simp only [specBin] at hv; split at hv; assumption; cases hv)
      have h64 := bits_le w
      refine ⟨by omega, ?_, fun u hu => ?_⟩
      · exact count_low (s := s) (n := w.bits) (j := 8) (Nat.pow_le_pow_right (by decide) (by cases w <;> decide)) h64 gb.1 hb.1
          (show b < 256 by omega)
      · have := hlit u hu
        subst this
        rw [BitVec.toNat_ofInt]
        congr 1
        exact Int.emod_eq_of_lt hb.1 (by have : (64 : Int) < 2 ^ 64 := by decide
                                         omega)
    obtain ⟨st', e1, e2, e3⟩ := W.bin op w s x y n st b.toNat hx hy hok.1 nz cnt
    refine ⟨st', e1, ?_, e3⟩
    have fin : ∀ z : BitVec (native w), (st'.regs (.t n)).setWidth (native w) = z → bval s (z.setWidth w.bits) = v →
        ((Rules.wide native okb okc exCast okCast).exBin op w s ea eb = true → bval s z = v) →
        Good (.wide native okb okc exCast okCast) ((Rules.wide native okb okc exCast okCast).exBin op w s ea eb) (.int w s) (st'.regs (.t n)) v := by
      intro z hz h1 h2
      subst hz
      exact good_mk hN.2 hN.1 h1 h2
    have full : native w = w.bits → bval s ((st'.regs (.t n)).setWidth w.bits) = v → bval s ((st'.regs (.t n)).setWidth (native w)) = v := by
      intro h h'; rw [h]; exact h'
    -- an operation that is right whenever the value is, and fills the register only if the type does
    have viaLow : ∀ z : BitVec (native w), (st'.regs (.t n)).setWidth (native w) = z → bval s (z.setWidth w.bits) = v →
        (Rules.wide native okb okc exCast okCast).exBin op w s ea eb = (native w == w.bits) → 
        Good (.wide native okb okc exCast okCast) ((Rules.wide native okb okc exCast okCast).exBin op w s ea eb) (.int w s) (st'.regs (.t n)) v := by
      intro z hz h1 h2
      refine fin z hz h1 fun h3 => ?_
      rw [h2, beq_iff_eq] at h3
      rw [← hz]
      subst hz
      rw [setWidth_setWidth hN.1] at h1
      exact full h3 h1
    -- an operation on whole registers
    have viaFull : ∀ z : BitVec (native w), (st'.regs (.t n)).setWidth (native w) = z → bval s z = v →
        Good (.wide native okb okc exCast okCast) ((Rules.wide native okb okc exCast okCast).exBin op w s ea eb) (.int w s) (st'.regs (.t n)) v := by
      intro z hz h1
      exact fin z hz (bval_narrow hn hN.1 h1 (inRange_rangeN hv')) fun _ => h1
    cases op with
    | add =>
      simp only [specBin, Option.some.injEq] at hv
      exact viaLow _ e2 ((low_add hn hN.1 la lb).trans hv) (by simp [Rules.wide])
    | sub =>
      simp only [specBin, Option.some.injEq] at hv
      exact viaLow _ e2 ((low_sub hn hN.1 la lb).trans hv) (by simp [Rules.wide])
    | mul =>
      simp only [specBin, Option.some.injEq] at hv
      exact viaLow _ e2 ((low_mul hn hN.1 la lb).trans hv) (by simp [Rules.wide])
    | shl =>
      simp only [specBin] at hv
      split at hv
      · simp only [Option.some.injEq] at hv
        exact viaLow _ e2 ((low_shl hn hN.1 _ la).trans hv) (by simp [Rules.wide])
      · cases hv
    | shr =>
      simp only [specBin] at hv
      split at hv
      · simp only [Option.some.injEq] at hv
        exact viaFull _ e2 ((full_shr _ (good_full ga hok.2)).trans hv)
      · cases hv
    | div =>
      simp only [specBin] at hv
      split at hv
      · cases hv
      · simp only [Option.some.injEq] at hv
        subst hv
        exact viaFull _ e2 (full_div hn hN.1 (good_full ga hok.2.1) (good_full gb hok.2.2) (inRange_rangeN hv'))
    | rem =>
      simp only [specBin] at hv
      split at hv
      · cases hv
      · simp only [Option.some.injEq] at hv
        subst hv
        exact viaFull _ e2 (full_rem hn hN.1 (good_full ga hok.2.1) (good_full gb hok.2.2) (inRange_rangeN hv'))
    | and =>
      simp only [specBin, Option.some.injEq] at hv
      have hl : bval s ((((x.get st.regs).setWidth (native w)) &&& ((y.get st.regs).setWidth (native w))).setWidth w.bits) = v := by
        rw [BitVec.setWidth_and, ← hv, ← la, ← lb]
        exact (bval_bitwise (.int w s) (· &&& ·) _ _).symm
      refine fin _ e2 hl fun he => ?_
      simp only [Rules.wide, Bool.or_eq_true, beq_iff_eq, Bool.and_eq_true] at he
      rcases he with he | ⟨h1, h2⟩
      · rw [← e2]
        refine full he ?_
        rw [← setWidth_setWidth hN.1, e2]
        exact hl
      · exact (full_and hn hN.1 (ga.2 h1) (gb.2 h2) (inRange_rangeN ra) (inRange_rangeN rb)).trans hl
    | or =>
      simp only [specBin, Option.some.injEq] at hv
      have hl : bval s ((((x.get st.regs).setWidth (native w)) ||| ((y.get st.regs).setWidth (native w))).setWidth w.bits) = v := by
        rw [BitVec.setWidth_or, ← hv, ← la, ← lb]
        exact (bval_bitwise (.int w s) (· ||| ·) _ _).symm
      refine fin _ e2 hl fun he => ?_
      simp only [Rules.wide, Bool.or_eq_true, beq_iff_eq, Bool.and_eq_true] at he
      rcases he with he | ⟨h1, h2⟩
      · rw [← e2]
        refine full he ?_
        rw [← setWidth_setWidth hN.1, e2]
        exact hl
      · exact (full_or hn hN.1 (ga.2 h1) (gb.2 h2) (inRange_rangeN ra) (inRange_rangeN rb)).trans hl
    | xor =>
      simp only [specBin, Option.some.injEq] at hv
      have hl : bval s ((((x.get st.regs).setWidth (native w)) ^^^ ((y.get st.regs).setWidth (native w))).setWidth w.bits) = v := by
        rw [BitVec.setWidth_xor, ← hv, ← la, ← lb]
        exact (bval_bitwise (.int w s) (· ^^^ ·) _ _).symm
      refine fin _ e2 hl fun he => ?_
      simp only [Rules.wide, Bool.or_eq_true, beq_iff_eq, Bool.and_eq_true] at he
      rcases he with he | ⟨h1, h2⟩
      · rw [← e2]
        refine full he ?_
        rw [← setWidth_setWidth hN.1, e2]
        exact hl
      · exact (full_xor hn hN.1 (ga.2 h1) (gb.2 h2) (inRange_rangeN ra) (inRange_rangeN rb)).trans hl
  cmp op k x y n st a b ea eb hx hy ga gb hok ra rb hlit := by
    obtain ⟨st', e1, e2, e3⟩ := W.cmp op k x y n st hx hy hok.1 fun u hu => ⟨b, rb, hlit u hu⟩
    refine ⟨st', e1, ?_, e3⟩
    have hN := W.native_le k.width
    have sg : ∀ z : BitVec 64, ∀ c : Int, bval k.signed (z.setWidth (native k.width)) = c → InRange k c →
        bval (sgOf k) (z.setWidth (native k.width)) = c := by
      intro z c hz hc
      cases k with
      | int w s => exact hz
      | bool =>
        have hp : 0 < native .w8 := Nat.lt_of_lt_of_le (by decide) hN.1
        have h1 : z.setWidth (native .w8) = BitVec.ofInt _ c := by rw [← hz]; exact (ofInt_bval false _).symm
        show bval true (z.setWidth (native .w8)) = c
        rw [h1, bval_ofInt true hp]
        apply wrapN_range hp
        apply rangeN_mono (n := 8) (by decide) hN.1
        rcases hc with h | h <;> subst h <;> exact ⟨by decide, by decide⟩
    have fa := sg _ _ (good_full ga hok.2.1) ra
    have fb := sg _ _ (good_full gb hok.2.2) rb
    rw [fa, fb] at e2
    rw [e2]
    have h1 := good_lit (T := .wide native okb okc exCast okCast) W.native_le (k := .bool) (v := 1) (.inr rfl)
    have h0 := good_lit (T := .wide native okb okc exCast okCast) W.native_le (k := .bool) (v := 0) (.inl rfl)
    cases specCmp op a b
    · exact h0
    · exact h1
  neg w s x n st a ea hx ga := by
    obtain ⟨st', e1, e2, e3⟩ := W.neg w s x n st hx
    have hN := W.native_le w
    refine ⟨st', e1, ?_, e3⟩
    have hl : bval s ((-((x.get st.regs).setWidth (native w))).setWidth w.bits) = wrapN s w.bits (-a) :=
      low_neg (bits_pos w) hN.1 (good_low ga hN.1)
    rw [← e2] at hl
    refine good_mk hN.2 hN.1 hl fun he => ?_
    have he : native w = w.bits := beq_iff_eq.mp he
    rw [setWidth_setWidth hN.1] at hl
    show bval s ((st'.regs (.t n)).setWidth (native w)) = _
    rw [he]; exact hl
  bnot w s x n st a ea hx ga := by
    obtain ⟨st', e1, e2, e3⟩ := W.bnot w s x n st hx
    have hN := W.native_le w
    refine ⟨st', e1, ?_, e3⟩
    have hl : bval s ((~~~((x.get st.regs).setWidth (native w))).setWidth w.bits) = wrapN s w.bits (-a - 1) :=
      low_not (bits_pos w) hN.1 (good_low ga hN.1)
    rw [← e2] at hl
    refine good_mk hN.2 hN.1 hl fun he => ?_
    simp only [Rules.wide, Bool.or_eq_true, beq_iff_eq, Bool.and_eq_true] at he
    rcases he with he | ⟨h1, h2⟩
    · rw [setWidth_setWidth hN.1] at hl
      show bval s ((st'.regs (.t n)).setWidth (native w)) = _
      rw [he]; exact hl
    · subst h1
      show bval true ((st'.regs (.t n)).setWidth (native w)) = _
      rw [e2]
      refine full_not (bits_pos w) hN.1 (ga.2 h2) ?_
      have := bval_range true (bits_pos w) ((x.get st.regs).setWidth w.bits)
      rw [show bval true ((x.get st.regs).setWidth w.bits) = a from ga.1] at this
      exact this
  not r n st a ea hx ga h01 := by
    obtain ⟨st', e1, e2, e3⟩ := W.not r n st hx
    have hN := W.native_le .w8
    refine ⟨st', e1, ?_, e3⟩
    have key : ∀ N : Nat, 8 ≤ N → ∀ X : BitVec N, bval false X = a → bval false (X ^^^ 1) = 1 - a := by
      intro N hN X hX
      have hp : 0 < N := by omega
      have e : X = BitVec.ofInt N a := by rw [← hX, ofInt_bval]
      have one : bval false (1#N) = 1 := by
        have := bval_ofInt false hp 1
        rw [wrapN_range hp (rangeN_mono (n := 8) (by decide) hN (show RangeN false 8 1 from ⟨by decide, by decide⟩))] at this
        exact this
      subst e
      rcases h01 with h | h <;> subst h
      · rw [show BitVec.ofInt N 0 = 0#N from by simp]
        simpa using one
      · rw [show BitVec.ofInt N 1 = 1#N from rfl]
        simp [bval]
    have one8 : (1 : BitVec (native .w8)).setWidth 8 = 1 := by
      apply BitVec.eq_of_toNat_eq
      have h2 : 1 < 2 ^ native .w8 := Nat.lt_of_lt_of_le (show 1 < 2 ^ 8 by decide) (Nat.pow_le_pow_right (by decide) hN.1)
      simp [Nat.mod_eq_of_lt h2]
    refine good_mk hN.2 hN.1 ?_ fun he => ?_
    · show bval false (((st'.regs (.t n)).setWidth (native .w8)).setWidth 8) = 1 - a
      rw [e2, BitVec.setWidth_xor, one8]
      exact key 8 (Nat.le_refl 8) _ (good_low ga hN.1)
    · show bval false ((st'.regs (.t n)).setWidth (native .w8)) = 1 - a
      rw [e2]
      exact key _ hN.1 _ (ga.2 he)
  cast k w s x n st a ea hk hx ga hok ra := by
    obtain ⟨st', e1, e2, e3, e4⟩ := W.cast k w s x n st a ea hk hx ga hok ra
    refine ⟨st', e1, ⟨e2, fun he => ?_⟩, e4⟩
    simp only [Rules.wide, Bool.or_eq_true, beq_iff_eq] at he
    rcases he with he | he
    · show bval s ((st'.regs (.t n)).setWidth (native w)) = _
      rw [he]; exact e2
    · exact e3 he

end

end Nature.Arith
