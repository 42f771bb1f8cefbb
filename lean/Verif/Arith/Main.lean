import Verif.Arith.Rules
import Verif.Arith.Bits
/-
From single operations to expressions, for any target.
-/
namespace Nature.Arith

/-- The register `x` represents the value `v` of type `k`; with `e`, it does so with all the bits the target's operations use. -/
def Good (T : Rules) (e : Bool) (k : Kind) (x : BitVec 64) (v : Int) : Prop :=
  val k x = v ∧ (e = true → ival k.signed (T.native k.width) x = v)

/-- Only the temporary `n` and registers of the target's own lowering have changed. -/
def Frame (n : Nat) (s s' : St) : Prop := (∀ x, s'.regs (.v x) = s.regs (.v x)) ∧ ∀ m, m ≠ n → s'.regs (.t m) = s.regs (.t m)

/-- Operands of the LIR: literals, variables, and temporaries already assigned. -/
def Src (n : Nat) : Opd → Prop
  | .imm _ => True
  | .reg (.v _) => True
  | .reg (.t m) => m < n
  | .reg _ => False

def Opd.lit? : Opd → Option (BitVec 64)
  | .imm v => some v
  | .reg _ => none

/-- The operations are right, one by one. -/
structure Correct (T : Rules) (exec : Lir → St → Option St) : Prop where
  native_le : ∀ w, w.bits ≤ T.native w ∧ T.native w ≤ 64
  bin : ∀ op w s x y n st a b v ea eb, InRange (.int w s) a → InRange (.int w s) b → Src n x → Src n y → Good T ea (.int w s) (x.get st.regs) a → Good T eb (.int w s) (y.get st.regs) b →
    T.okBin op w s ea eb y.lit? a b → (∀ u, y = .imm u → u = BitVec.ofInt 64 b) → specBin op (.int w s) a b = some v →
    ∃ st', exec ⟨opcodeFor (binCode op) (.int w s), x, y, .t n, .int w s, .int w s⟩ st = some st' ∧
      Good T (T.exBin op w s ea eb) (.int w s) (st'.regs (.t n)) v ∧ Frame n st st'
  cmp : ∀ op k x y n st a b ea eb, Src n x → Src n y → Good T ea k (x.get st.regs) a → Good T eb k (y.get st.regs) b →
    T.okCmp op k ea eb y.lit? → InRange k a → InRange k b → (∀ u, y = .imm u → u = BitVec.ofInt 64 b) →
    ∃ st', exec ⟨opcodeFor (cmpCode op) k, x, y, .t n, .bool, k⟩ st = some st' ∧
      Good T true .bool (st'.regs (.t n)) (if specCmp op a b then 1 else 0) ∧ Frame n st st'
  neg : ∀ w s x n st a ea, Src n x → Good T ea (.int w s) (x.get st.regs) a →
    ∃ st', exec ⟨.neg, x, x, .t n, .int w s, .int w s⟩ st = some st' ∧
      Good T (T.exNeg w s ea) (.int w s) (st'.regs (.t n)) (wrap (.int w s) (-a)) ∧ Frame n st st'
  bnot : ∀ w s x n st a ea, Src n x → Good T ea (.int w s) (x.get st.regs) a →
    ∃ st', exec ⟨.not, x, x, .t n, .int w s, .int w s⟩ st = some st' ∧
      Good T (T.exNot w s ea) (.int w s) (st'.regs (.t n)) (wrap (.int w s) (-a - 1)) ∧ Frame n st st'
  not : ∀ r n st a ea, Src n (.reg r) → Good T ea .bool (st.regs r) a → a = 0 ∨ a = 1 →
    ∃ st', exec ⟨.xor, .reg r, .imm 1, .t n, .bool, .bool⟩ st = some st' ∧ Good T ea .bool (st'.regs (.t n)) (1 - a) ∧ Frame n st st'
  cast : ∀ k w s x n st a ea, k ≠ .int w s → Src n x → Good T ea k (x.get st.regs) a → T.okCast k w s ea → InRange k a →
    ∃ st', exec ⟨castCode k (.int w s), x, x, .t n, .int w s, k⟩ st = some st' ∧
      Good T (T.exCast k w s ea) (.int w s) (st'.regs (.t n)) (wrap (.int w s) a) ∧ Frame n st st'

def execAll (exec : Lir → St → Option St) : List Lir → St → Option St
  | [], s => some s
  | l :: ls, s => (exec l s).bind (execAll exec ls)

theorem execAll_append (exec : Lir → St → Option St) (xs ys : List Lir) (s : St) :
    execAll exec (xs ++ ys) s = (execAll exec xs s).bind (execAll exec ys) := by
  induction xs generalizing s with
  | nil => rfl
  | cons x xs ih =>
    simp only [List.cons_append, execAll]
    cases exec x s with
    | none => rfl
    | some s' => exact ih s'

/-- Only temporaries from `n` up to `m` and registers of the target's own lowering have changed. -/
def Frames (n m : Nat) (s s' : St) : Prop :=
  (∀ x, s'.regs (.v x) = s.regs (.v x)) ∧ ∀ j, j < n ∨ m ≤ j → s'.regs (.t j) = s.regs (.t j)

theorem Frames.trans {n m k : Nat} {s s' s'' : St} (h1 : Frames n m s s') (h2 : Frames m k s' s'') (hnm : n ≤ m) (hmk : m ≤ k) :
    Frames n k s s'' :=
  ⟨fun x => (h2.1 x).trans (h1.1 x), fun j hj => (h2.2 j (by omega)).trans (h1.2 j (by omega))⟩

theorem Frame.frames {n : Nat} {s s' : St} (h : Frame n s s') : Frames n (n + 1) s s' := ⟨h.1, fun j hj => h.2 j (by omega)⟩

theorem Frames.refl (n : Nat) (s : St) : Frames n n s s := ⟨fun _ => rfl, fun _ _ => rfl⟩

theorem src_mono {n m : Nat} {x : Opd} (h : Src n x) (hm : n ≤ m) : Src m x := by
  cases x with
  | imm v => trivial
  | reg r =>
    cases r with
    | v _ => trivial
    | t j => exact Nat.lt_of_lt_of_le h hm
    | l _ => exact h
    | s _ => exact h

theorem src_frames {n m : Nat} {x : Opd} {s s' : St} (h : Src n x) (hf : Frames n m s s') : x.get s'.regs = x.get s.regs := by
  cases x with
  | imm v => rfl
  | reg r =>
    cases r with
    | v y => exact hf.1 y
    | t j => exact hf.2 j (.inl h)
    | l _ => exact h.elim
    | s _ => exact h.elim

theorem wrapN_inRange (w : Width) (s : Bool) (v : Int) : InRange (.int w s) (wrapN s w.bits v) := by
  apply rangeN_inRange
  rw [← bval_ofInt s (bits_pos w)]
  exact bval_range s (bits_pos w) _

theorem bitwise_inRange (w : Width) (s : Bool) (f : BitVec w.bits → BitVec w.bits → BitVec w.bits) (a b : Int) :
    InRange (.int w s) (bitwise (.int w s) f a b) := wrapN_inRange w s _

theorem Int.tmod_bounds {a b : Int} (hb : b ≠ 0) : (0 ≤ a → 0 ≤ a.tmod b ∧ a.tmod b ≤ a) ∧ (a ≤ 0 → a ≤ a.tmod b ∧ a.tmod b ≤ 0) := by
  have pos : ∀ a b : Int, 0 ≤ a → 0 ≤ a.tmod b ∧ a.tmod b ≤ a := by
    intro a b ha
    refine ⟨Int.tmod_nonneg _ ha, ?_⟩
    rw [← Int.natAbs_of_nonneg ha]
    have : ∀ (m : Nat) (b : Int), (m : Int).tmod b ≤ m := by
      intro m b
      cases b with
      | ofNat j => exact Int.ofNat_le.mpr (Nat.mod_le m j)
      | negSucc j => exact Int.ofNat_le.mpr (Nat.mod_le m (j + 1))
    exact this _ _
  refine ⟨pos a b, fun ha => ?_⟩
  have := pos (-a) b (by omega)
  rw [Int.neg_tmod] at this
  omega

/-- The value of an operation is a value of its type. -/
theorem specBin_inRange {op : BinOp} {w : Width} {s : Bool} {a b v : Int} (ha : InRange (.int w s) a) (hb : InRange (.int w s) b)
    (h : specBin op (.int w s) a b = some v) : InRange (.int w s) v := by
  cases op with
  | add => simp only [specBin, Option.some.injEq] at h; subst h; exact wrapN_inRange w s _
  | sub => simp only [specBin, Option.some.injEq] at h; subst h; exact wrapN_inRange w s _
  | mul => simp only [specBin, Option.some.injEq] at h; subst h; exact wrapN_inRange w s _
  | and => simp only [specBin, Option.some.injEq] at h; subst h; exact bitwise_inRange w s _ _ _
  | or => simp only [specBin, Option.some.injEq] at h; subst h; exact bitwise_inRange w s _ _ _
  | xor => simp only [specBin, Option.some.injEq] at h; subst h; exact bitwise_inRange w s _ _ _
  | div =>
    simp only [specBin] at h
    split at h
    · cases h
    · rename_i hc
      simp only [Option.some.injEq] at h; subst h
      exact Classical.byContradiction fun hn => hc (.inr hn)
  | rem =>
    simp only [specBin] at h
    split at h
    · cases h
    · rename_i hc
      have hb0 : b ≠ 0 := fun e => hc (.inl e)
      simp only [Option.some.injEq] at h; subst h
      have := Int.tmod_bounds (a := a) hb0
      cases s <;> simp only [InRange] at ha ⊢ <;> omega
  | shl =>
    simp only [specBin] at h
    split at h
    · simp only [Option.some.injEq] at h; subst h; exact wrapN_inRange w s _
    · cases h
  | shr =>
    simp only [specBin] at h
    split at h
    · simp only [Option.some.injEq] at h; subst h
      have hp : (0 : Int) < 2 ^ b.toNat := Int.pow_pos (by decide)
      have h1 : ∀ c : Int, 0 ≤ c → a < c → a / 2 ^ b.toNat < c := by
        intro c hc hac
        apply Int.ediv_lt_of_lt_mul hp
        have : c * 1 ≤ c * 2 ^ b.toNat := Int.mul_le_mul_of_nonneg_left (by omega) hc
        omega
      have h2 : ∀ c : Int, c ≤ 0 → c ≤ a → c ≤ a / 2 ^ b.toNat := by
        intro c hc hac
        apply Int.le_ediv_of_mul_le hp
        have : (-c) * 1 ≤ (-c) * 2 ^ b.toNat := Int.mul_le_mul_of_nonneg_left (by omega) (by omega)
        rw [Int.neg_mul, Int.neg_mul] at this
        omega
      have hq : ∀ j : Nat, (0 : Int) < 2 ^ j := fun j => Int.pow_pos (by decide)
      cases s with
      | true => exact ⟨h2 _ (by have := hq (w.bits - 1); omega) ha.1, h1 _ (by have := hq (w.bits - 1); omega) ha.2⟩
      | false => exact ⟨h2 _ (by omega) ha.1, h1 _ (by have := hq w.bits; omega) ha.2⟩
    · cases h

theorem eval_inRange (ρ : Nat → Int) {k : Kind} (e : Expr k) : WellTyped ρ e → ∀ v, eval ρ e = some v → InRange k v := by
  induction e with
  | var k x => intro h v hv; simp only [eval, Option.some.injEq] at hv; subst hv; exact h
  | lit k x => intro h v hv; simp only [eval, Option.some.injEq] at hv; subst hv; exact h
  | bin op w s a b iha ihb =>
    intro h v hv
    simp only [eval, Option.bind_eq_some_iff] at hv
    obtain ⟨x, hx, y, hy, hv⟩ := hv
    exact specBin_inRange (iha h.1 x hx) (ihb h.2 y hy) hv
  | cmp op a b iha ihb =>
    intro h v hv
    simp only [eval, Option.bind_eq_some_iff] at hv
    obtain ⟨x, hx, y, hy, hv⟩ := hv
    simp only [Option.some.injEq] at hv; subst hv
    split
    · exact .inr rfl
    · exact .inl rfl
  | neg w s a ih =>
    intro h v hv
    simp only [eval, Option.bind_eq_some_iff] at hv
    obtain ⟨x, hx, hv⟩ := hv
    simp only [Option.some.injEq] at hv; subst hv; exact wrapN_inRange w s _
  | bnot w s a ih =>
    intro h v hv
    simp only [eval, Option.bind_eq_some_iff] at hv
    obtain ⟨x, hx, hv⟩ := hv
    simp only [Option.some.injEq] at hv; subst hv; exact wrapN_inRange w s _
  | not a ih =>
    intro h v hv
    simp only [eval, Option.bind_eq_some_iff] at hv
    obtain ⟨x, hx, hv⟩ := hv
    simp only [Option.some.injEq] at hv; subst hv
    rcases ih h x hx with e | e <;> subst e
    · exact .inr rfl
    · exact .inl rfl
  | cast w s a ih =>
    intro h v hv
    simp only [eval, Option.bind_eq_some_iff] at hv
    obtain ⟨x, hx, hv⟩ := hv
    simp only [Option.some.injEq] at hv; subst hv; exact wrapN_inRange w s _

theorem compile_lit {k : Kind} (e : Expr k) : ∀ n, (compile e n).2.1.lit? = immOf e := by
  induction e with
  | var k x => intro n; rfl
  | lit k v => intro n; rfl
  | bin op w s a b iha ihb => intro n; rfl
  | cmp op a b iha ihb => intro n; rfl
  | neg w s a ih => intro n; rfl
  | bnot w s a ih => intro n; rfl
  | not a ih =>
    intro n
    have := ih n
    simp only [compile, immOf]
    cases hx : (compile a n).2.1 with
    | imm v => rw [hx] at this; simp only [Opd.lit?] at this; rw [← this]; rfl
    | reg r => rw [hx] at this; simp only [Opd.lit?] at this; rw [← this]; rfl
  | cast w s a ih =>
    intro n
    simp only [compile, immOf]
    split
    · exact ih n
    · rfl

/-- The literal the instruction selection sees is the value of the expression. -/
theorem immOf_val (ρ : Nat → Int) {k : Kind} (e : Expr k) :
    WellTyped ρ e → ∀ u, immOf e = some u → ∀ v, eval ρ e = some v → u = BitVec.ofInt 64 v := by
  induction e with
  | var k x => intro _ u hu; cases hu
  | lit k x =>
    intro _ u hu v hv
    simp only [immOf, eval, Option.some.injEq] at hu hv
    subst hu; subst hv; rfl
  | bin op w s a b iha ihb => intro _ u hu; cases hu
  | cmp op a b iha ihb => intro _ u hu; cases hu
  | neg w s a ih => intro _ u hu; cases hu
  | bnot w s a ih => intro _ u hu; cases hu
  | not a ih =>
    intro hw u hu v hv
    simp only [eval, Option.bind_eq_some_iff] at hv
    obtain ⟨x, hx, hv⟩ := hv
    simp only [Option.some.injEq] at hv; subst hv
    have hr := eval_inRange ρ a hw x hx
    simp only [immOf, Option.map_eq_some_iff] at hu
    obtain ⟨u', hu', e⟩ := hu
    have := ih hw u' hu' x hx
    subst this; subst e
    rcases hr with h | h <;> subst h <;> rfl
  | cast w s a ih =>
    intro hw u hu v hv
    simp only [eval, Option.bind_eq_some_iff] at hv
    obtain ⟨x, hx, hv⟩ := hv
    simp only [Option.some.injEq] at hv; subst hv
    have hr := eval_inRange ρ a hw x hx
    simp only [immOf] at hu
    split at hu
    · rename_i hk
      rw [show wrap (.int w s) x = x from by subst hk; exact wrapN_range (bits_pos w) (inRange_rangeN hr)]
      exact ih hw u hu x hx
    · cases hu

/-- The variables are in their registers, and fill the bits the target works with. -/
def VarsGood (T : Rules) (ρ : Nat → Int) (st : St) {k : Kind} (e : Expr k) : Prop :=
  AllVars (fun k x => Good T true k (st.regs (.v x)) (ρ x)) e

theorem varsGood_frames {T : Rules} {ρ : Nat → Int} {st st' : St} {n m : Nat} (hf : Frames n m st st') {k : Kind} (e : Expr k) :
    VarsGood T ρ st e → VarsGood T ρ st' e := by
  unfold VarsGood
  induction e with
  | var k x => intro h; simp only [AllVars] at *; rw [hf.1 x]; exact h
  | lit k v => intro h; exact h
  | bin op w s a b iha ihb => intro h; exact ⟨iha h.1, ihb h.2⟩
  | cmp op a b iha ihb => intro h; exact ⟨iha h.1, ihb h.2⟩
  | neg w s a ih => intro h; exact ih h
  | bnot w s a ih => intro h; exact ih h
  | not a ih => intro h; exact ih h
  | cast w s a ih => intro h; exact ih h

theorem good_lit {T : Rules} (hT : ∀ w, w.bits ≤ T.native w ∧ T.native w ≤ 64) {k : Kind} {v : Int} (h : InRange k v) :
    Good T true k (BitVec.ofInt 64 v) v :=
  ⟨bval_lit (bits_pos _) (bits_le _) (inRange_rangeN h),
    fun _ => bval_lit (Nat.lt_of_lt_of_le (bits_pos _) (hT _).1) (hT _).2 (rangeN_mono (bits_pos _) (hT _).1 (inRange_rangeN h))⟩

theorem Good.weaken {T : Rules} {k : Kind} {x : BitVec 64} {v : Int} (e : Bool) (h : Good T true k x v) : Good T e k x v :=
  ⟨h.1, fun _ => h.2 rfl⟩

theorem val_int_eq {k : Kind} {w : Width} {s : Bool} (h : k = .int w s) {v : Int} (hv : InRange k v) : wrap (.int w s) v = v := by
  subst h
  exact wrapN_range (bits_pos w) (inRange_rangeN hv)

/-- The code of an expression computes its value. -/
theorem compile_ok {T : Rules} {exec : Lir → St → Option St} (hT : Correct T exec) (ρ : Nat → Int) {k : Kind} (e : Expr k) :
    WellTyped ρ e → Ok T ρ e → ∀ (v : Int), eval ρ e = some v → ∀ (n : Nat) (st : St), VarsGood T ρ st e →
    n ≤ (compile e n).2.2 ∧ Src (compile e n).2.2 (compile e n).2.1 ∧
    ∃ st', execAll exec (compile e n).1 st = some st' ∧ Good T (exact T e) k ((compile e n).2.1.get st'.regs) v ∧
      Frames n (compile e n).2.2 st st' := by
  induction e with
  | var k x =>
    intro hw hok v hv n st hvars
    simp only [eval, Option.some.injEq] at hv; subst hv
    exact ⟨Nat.le_refl _, trivial, st, rfl, hvars, Frames.refl n st⟩
  | lit k x =>
    intro hw hok v hv n st hvars
    simp only [eval, Option.some.injEq] at hv; subst hv
    exact ⟨Nat.le_refl _, trivial, st, rfl, good_lit hT.native_le hw, Frames.refl n st⟩
  | bin op w s a b iha ihb =>
    intro hw hok v hv n st hvars
    simp only [eval, Option.bind_eq_some_iff] at hv
    obtain ⟨x, hx, y, hy, hv⟩ := hv
    obtain ⟨a1, a2, s1, a3, a4, a5⟩ := iha hw.1 hok.1 x hx n st hvars.1
    obtain ⟨b1, b2, s2, b3, b4, b5⟩ := ihb hw.2 hok.2.1 y hy (compile a n).2.2 s1 (varsGood_frames a5 b hvars.2)
    have hk := hok.2.2 x y hx hy
    rw [← compile_lit b (compile a n).2.2] at hk
    rw [← src_frames a2 b5] at a4
    obtain ⟨s3, c1, c2, c3⟩ := hT.bin op w s _ _ _ s2 x y v _ _ (eval_inRange ρ a hw.1 x hx)
      (eval_inRange ρ b hw.2 y hy) (src_mono a2 b1) b2 a4 b4 hk
      (fun u hu => immOf_val ρ b hw.2 u (by rw [← compile_lit b (compile a n).2.2, hu]; rfl) y hy) hv
    refine ⟨Nat.le_succ_of_le (Nat.le_trans a1 b1), Nat.lt_succ_self _, s3, ?_, c2, ?_⟩
    · simp only [compile, execAll_append, a3, b3, Option.bind_some, execAll, c1]
    · exact (a5.trans b5 a1 b1).trans c3.frames (Nat.le_trans a1 b1) (Nat.le_succ _)
  | cmp op a b iha ihb =>
    intro hw hok v hv n st hvars
    simp only [eval, Option.bind_eq_some_iff] at hv
    obtain ⟨x, hx, y, hy, hv⟩ := hv
    simp only [Option.some.injEq] at hv; subst hv
    obtain ⟨a1, a2, s1, a3, a4, a5⟩ := iha hw.1 hok.1 x hx n st hvars.1
    obtain ⟨b1, b2, s2, b3, b4, b5⟩ := ihb hw.2 hok.2.1 y hy (compile a n).2.2 s1 (varsGood_frames a5 b hvars.2)
    have hk := hok.2.2
    rw [← compile_lit b (compile a n).2.2] at hk
    rw [← src_frames a2 b5] at a4
    obtain ⟨s3, c1, c2, c3⟩ := hT.cmp op _ _ _ _ s2 x y _ _ (src_mono a2 b1) b2 a4 b4 hk
      (eval_inRange ρ a hw.1 x hx) (eval_inRange ρ b hw.2 y hy)
      (fun u hu => immOf_val ρ b hw.2 u (by rw [← compile_lit b (compile a n).2.2, hu]; rfl) y hy)
    refine ⟨Nat.le_succ_of_le (Nat.le_trans a1 b1), Nat.lt_succ_self _, s3, ?_, c2, ?_⟩
    · simp only [compile, execAll_append, a3, b3, Option.bind_some, execAll, c1]
    · exact (a5.trans b5 a1 b1).trans c3.frames (Nat.le_trans a1 b1) (Nat.le_succ _)
  | neg w s a ih =>
    intro hw hok v hv n st hvars
    simp only [eval, Option.bind_eq_some_iff] at hv
    obtain ⟨x, hx, hv⟩ := hv
    simp only [Option.some.injEq] at hv; subst hv
    obtain ⟨a1, a2, s1, a3, a4, a5⟩ := ih hw hok x hx n st hvars
    obtain ⟨s3, c1, c2, c3⟩ := hT.neg w s _ _ s1 x _ a2 a4
    refine ⟨Nat.le_succ_of_le a1, Nat.lt_succ_self _, s3, ?_, c2, a5.trans c3.frames a1 (Nat.le_succ _)⟩
    simp only [compile, execAll_append, a3, Option.bind_some, execAll, c1]
  | bnot w s a ih =>
    intro hw hok v hv n st hvars
    simp only [eval, Option.bind_eq_some_iff] at hv
    obtain ⟨x, hx, hv⟩ := hv
    simp only [Option.some.injEq] at hv; subst hv
    obtain ⟨a1, a2, s1, a3, a4, a5⟩ := ih hw hok x hx n st hvars
    obtain ⟨s3, c1, c2, c3⟩ := hT.bnot w s _ _ s1 x _ a2 a4
    refine ⟨Nat.le_succ_of_le a1, Nat.lt_succ_self _, s3, ?_, c2, a5.trans c3.frames a1 (Nat.le_succ _)⟩
    simp only [compile, execAll_append, a3, Option.bind_some, execAll, c1]
  | not a ih =>
    intro hw hok v hv n st hvars
    simp only [eval, Option.bind_eq_some_iff] at hv
    obtain ⟨x, hx, hv⟩ := hv
    simp only [Option.some.injEq] at hv; subst hv
    obtain ⟨a1, a2, s1, a3, a4, a5⟩ := ih hw hok x hx n st hvars
    have hr := eval_inRange ρ a hw x hx
    cases hc : (compile a n).2.1 with
    | imm u =>
      simp only [compile, hc]
      rw [hc] at a4
      refine ⟨a1, trivial, s1, a3, ?_, a5⟩
      have hu := immOf_val ρ a hw u (by rw [← compile_lit a n, hc]; rfl) x hx
      have h01 : InRange .bool (1 - x) := by
        rcases hr with h | h <;> subst h
        · exact .inr rfl
        · exact .inl rfl
      have hg := (good_lit hT.native_le h01).weaken (exact T (.not a))
      have e : BitVec.ofInt 64 (1 - x) = if u = 0 then 1 else 0 := by
        subst hu
        rcases hr with h | h <;> subst h <;> rfl
      rw [e] at hg
      exact hg
    | reg r =>
      simp only [compile, hc]
      rw [hc] at a2 a4
      obtain ⟨s3, c1, c2, c3⟩ := hT.not r _ s1 x _ a2 a4 hr
      refine ⟨Nat.le_succ_of_le a1, Nat.lt_succ_self _, s3, ?_, c2, a5.trans c3.frames a1 (Nat.le_succ _)⟩
      simp only [execAll_append, a3, Option.bind_some, execAll, c1]
  | cast w s a ih =>
    intro hw hok v hv n st hvars
    simp only [eval, Option.bind_eq_some_iff] at hv
    obtain ⟨x, hx, hv⟩ := hv
    simp only [Option.some.injEq] at hv; subst hv
    obtain ⟨a1, a2, s1, a3, a4, a5⟩ := ih hw hok.1 x hx n st hvars
    have hr := eval_inRange ρ a hw x hx
    simp only [compile, exact]
    split
    · rename_i hk
      refine ⟨a1, a2, s1, a3, ?_, a5⟩
      rw [val_int_eq hk hr]
      subst hk
      exact a4
    · rename_i hk
      obtain ⟨s3, c1, c2, c3⟩ := hT.cast _ w s _ _ s1 x _ hk a2 a4 (hok.2.resolve_left hk) hr
      refine ⟨Nat.le_succ_of_le a1, Nat.lt_succ_self _, s3, ?_, c2, a5.trans c3.frames a1 (Nat.le_succ _)⟩
      simp only [execAll_append, a3, Option.bind_some, execAll, c1]

end Nature.Arith
