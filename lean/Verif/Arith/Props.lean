import Verif.Arith.Amd64Proof
import Verif.Arith.Arm64Proof
import Verif.Arith.Riscv64Proof
/-
C85: the machine code of an integer expression computes its value, on amd64, arm64 and riscv64.
-/
namespace Nature.Arith

/-- A target: what its instructions do to the registers, and the code for operations of the LIR; `native` is the number of bits of a
register that its operations on a type read. -/
structure Target where
  I : Type
  run : List I → St → Option St
  code : List Lir → List I
  native : Width → Nat

def amd64 : Target := ⟨Amd64.I, Amd64.run, Amd64.code, Width.bits⟩
def arm64 : Target := ⟨Arm64.I, Arm64.run, Arm64.code, fun w => if w = .w64 then 64 else 32⟩
def riscv64 : Target := ⟨Riscv64.I, Riscv64.run, Riscv64.code, fun _ => 64⟩

/-- The variables of the expression are in their registers, extended to the bits the target reads. -/
def Loaded (T : Target) (ρ : Nat → Int) (st : St) {k : Kind} (e : Expr k) : Prop :=
  AllVars (fun k x => (if k.signed then ((st.regs (.v x)).setWidth (T.native k.width)).toInt
    else (((st.regs (.v x)).setWidth (T.native k.width)).toNat : Int)) = ρ x) e

/-- The code of the expression runs to its end and leaves the value in the low bits of the result. -/
def Computes (T : Target) (st : St) {k : Kind} (e : Expr k) (v : Int) : Prop :=
  ∃ st', T.run (T.code (compile e 0).1) st = some st' ∧
    (let x := ((compile e 0).2.1.get st'.regs).setWidth k.bits
     (if k.signed then x.toInt else (x.toNat : Int)) = v)

/-- C85 in full: every expression with a value. -/
def AllRight (T : Target) : Prop :=
  ∀ (k : Kind) (e : Expr k) (ρ : Nat → Int) (v : Int) (st : St), WellTyped ρ e → eval ρ e = some v → Loaded T ρ st e → Computes T st e v

theorem varsGood {T : Target} {U : Rules} (hle : ∀ w, w.bits ≤ U.native w) (hn : T.native = U.native) {ρ : Nat → Int} {st : St}
    {k : Kind} (e : Expr k) : WellTyped ρ e → Loaded T ρ st e → VarsGood U ρ st e := by
  unfold VarsGood Loaded
  rw [hn]
  induction e with
  | var k x =>
    intro hw h
    have h' : bval k.signed ((st.regs (.v x)).setWidth (U.native k.width)) = ρ x := h
    refine ⟨?_, fun _ => h'⟩
    have := bval_narrow (bits_pos k.width) (hle k.width) h' (inRange_rangeN hw)
    rwa [setWidth_setWidth (hle k.width)] at this
  | lit k v => intro _ _; trivial
  | bin op w s a b iha ihb => intro hw h; exact ⟨iha hw.1 h.1, ihb hw.2 h.2⟩
  | cmp op a b iha ihb => intro hw h; exact ⟨iha hw.1 h.1, ihb hw.2 h.2⟩
  | neg w s a ih => intro hw h; exact ih hw h
  | bnot w s a ih => intro hw h; exact ih hw h
  | not a ih => intro hw h; exact ih hw h
  | cast w s a ih => intro hw h; exact ih hw h

theorem computes {T : Target} {U : Rules} {exec : Lir → St → Option St} (hU : Correct U exec) (hn : T.native = U.native)
    (hrun : ∀ ls s, T.run (T.code ls) s = execAll exec ls s) {k : Kind} (e : Expr k) (ρ : Nat → Int) (v : Int) (st : St)
    (hw : WellTyped ρ e) (hv : eval ρ e = some v) (hl : Loaded T ρ st e) (hok : Ok U ρ e) : Computes T st e v := by
  obtain ⟨_, _, st', h1, h2, _⟩ := compile_ok hU ρ e hw hok v hv 0 st (varsGood (fun w => (hU.native_le w).1) hn e hw hl)
  exact ⟨st', by rw [hrun]; exact h1, h2.1⟩

/-- C85 on amd64, for expressions without a division or remainder of a negative dividend and without `bool as i8` or `bool as u8`. -/
theorem C85_amd64_partial (k : Kind) (e : Expr k) (ρ : Nat → Int) (v : Int) (st : St) (hw : WellTyped ρ e) (hv : eval ρ e = some v)
    (hl : Loaded amd64 ρ st e) (hok : Ok Amd64.rules ρ e) : Computes amd64 st e v :=
  computes Amd64.correct rfl Amd64.run_code e ρ v st hw hv hl hok

/-- C85 on arm64, for expressions in which
* quotients, remainders, shifts right and comparisons of 8- and 16-bit types have operands that fill 32 bits,
* conversions have operands that fill the half of the new type they look at,
* no literal less than -4095 is added or subtracted, and none is compared that is the least of its 32- or 64-bit type. -/
theorem C85_arm64_partial (k : Kind) (e : Expr k) (ρ : Nat → Int) (v : Int) (st : St) (hw : WellTyped ρ e) (hv : eval ρ e = some v)
    (hl : Loaded arm64 ρ st e) (hok : Ok Arm64.rules ρ e) : Computes arm64 st e v :=
  computes Arm64.correct rfl Arm64.run_code e ρ v st hw hv hl hok

/-- C85 on riscv64, for expressions in which
* quotients, remainders, shifts right and comparisons of types smaller than 64 bits have operands that fill the register,
* conversions have operands that fill the part of the register they look at,
* -2048 is not subtracted, and the largest unsigned number is not an upper bound. -/
theorem C85_riscv64_partial (k : Kind) (e : Expr k) (ρ : Nat → Int) (v : Int) (st : St) (hw : WellTyped ρ e) (hv : eval ρ e = some v)
    (hl : Loaded riscv64 ρ st e) (hok : Ok Riscv64.rules ρ e) : Computes riscv64 st e v :=
  computes Riscv64.correct rfl Riscv64.run_code e ρ v st hw hv hl hok

/-! ### The assumptions are met -/

def regs0 (f : Nat → Int) : St := ⟨fun | .v x => BitVec.ofInt 64 (f x) | _ => 0, ⟨false, false, false, false⟩⟩

abbrev i64v (x : Nat) : Expr (.int .w64 true) := .var _ x
abbrev i32v (x : Nat) : Expr (.int .w32 true) := .var _ x

/-- `((x * y - 70000) >> 3) % 1000 < ~x as u16 as i64`, for the variables x = 123456789012, y = 17. -/
def ex64 : Expr .bool :=
  .cmp .lt (.bin .rem _ _ (.bin .shr _ _ (.bin .sub _ _ (.bin .mul _ _ (i64v 0) (i64v 1)) (.lit _ 70000)) (.lit _ 3)) (.lit _ 1000))
    (.cast .w64 true (.cast .w16 false (.bnot _ _ (i64v 0))))

def ρ64 : Nat → Int := fun x => if x = 0 then 123456789012 else 17

theorem ex64_typed : WellTyped ρ64 ex64 := by
  simp only [ex64, i64v, WellTyped]
  decide

theorem ex64_val : eval ρ64 ex64 = some 1 := by decide +kernel

example : Computes amd64 (regs0 ρ64) ex64 1 := by
  refine C85_amd64_partial _ _ ρ64 _ _ ex64_typed ex64_val ?_ ?_
  · simp only [Loaded, ex64, i64v, AllVars]; decide
  · refine ⟨⟨⟨⟨⟨trivial, trivial, ?_⟩, trivial, ?_⟩, trivial, ?_⟩, trivial, ?_⟩, ⟨⟨trivial, .inr ?_⟩, .inr ?_⟩, ?_⟩
    · intro x y _ _ h; simp at h
    · intro x y _ _ h; simp at h
    · intro x y _ _ h; simp at h
    · intro x y hx _ _ _
      have : eval ρ64 (.bin .shr .w64 true (.bin .sub _ _ (.bin .mul _ _ (i64v 0) (i64v 1)) (.lit _ 70000)) (.lit _ 3)) = some 262345667900 := by decide +kernel
      rw [this] at hx
      cases hx; decide
    · intro h; cases h
    · intro h; cases h
    · trivial

example : Computes arm64 (regs0 ρ64) ex64 1 := by
  refine C85_arm64_partial _ _ ρ64 _ _ ex64_typed ex64_val ?_ ?_
  · simp only [Loaded, ex64, i64v, AllVars]; decide
  · refine ⟨⟨⟨⟨⟨trivial, trivial, ?_⟩, trivial, ?_⟩, trivial, ?_⟩, trivial, ?_⟩, ⟨⟨trivial, .inr ?_⟩, .inr ?_⟩, ?_⟩
    · exact fun _ _ _ _ => ⟨by intro h; simp at h, trivial⟩
    · refine fun _ _ _ _ => ⟨fun _ v hv => ?_, trivial⟩
      simp only [immOf, Option.some.injEq] at hv
      subst hv; decide
    · exact fun _ _ _ _ => ⟨by intro h; simp at h, .inl rfl⟩
    · exact fun _ _ _ _ => ⟨by intro h; simp at h, .inl rfl, .inl rfl⟩
    · intro h; exact absurd h (by decide)
    · intro _ _; rfl
    · exact ⟨⟨by simp [immOf], .inr (.inr (.inl (by decide)))⟩, .inl rfl, .inl rfl⟩

example : Computes riscv64 (regs0 ρ64) ex64 1 := by
  refine C85_riscv64_partial _ _ ρ64 _ _ ex64_typed ex64_val ?_ ?_
  · simp only [Loaded, ex64, i64v, AllVars]; decide
  · refine ⟨⟨⟨⟨⟨trivial, trivial, ?_⟩, trivial, ?_⟩, trivial, ?_⟩, trivial, ?_⟩, ⟨⟨trivial, .inr ?_⟩, .inr ?_⟩, ?_⟩
    · exact fun _ _ _ _ => ⟨by intro h; simp at h, trivial⟩
    · exact fun _ _ _ _ => ⟨fun _ => by simp only [immOf]; decide, trivial⟩
    · exact fun _ _ _ _ => ⟨by intro h; simp at h, .inl rfl⟩
    · exact fun _ _ _ _ => ⟨by intro h; simp at h, .inl rfl, .inl rfl⟩
    · intro h; exact absurd h (by decide)
    · intro _ _ _; rfl
    · exact ⟨fun h => by obtain ⟨w, h⟩ := h; simp at h, .inl rfl, .inl rfl⟩

/-! ### Expressions that come out wrong -/

/-- What the code leaves, if it runs to its end. -/
def outcome (T : Target) (st : St) {k : Kind} (e : Expr k) : Option Int :=
  (T.run (T.code (compile e 0).1) st).map fun st' =>
    let x := ((compile e 0).2.1.get st'.regs).setWidth k.bits
    if k.signed then x.toInt else (x.toNat : Int)

theorem computes_iff (T : Target) (st : St) {k : Kind} (e : Expr k) (v : Int) : Computes T st e v ↔ outcome T st e = some v := by
  unfold Computes outcome
  rw [Option.map_eq_some_iff]

theorem not_allRight {T : Target} {k : Kind} (e : Expr k) (ρ : Nat → Int) (v : Int) (hw : WellTyped ρ e) (hv : eval ρ e = some v)
    (hl : Loaded T ρ (regs0 ρ) e) (h : outcome T (regs0 ρ) e ≠ some v) : ¬ AllRight T :=
  fun hT => h ((computes_iff _ _ _ _).mp (hT k e ρ v _ hw hv hl))

def ρ7 : Nat → Int := fun _ => -7

/-- amd64: `x / 2` for x = -7 is 2^63 - 4, not -3: the upper half of the dividend is cleared instead of filled with the sign. -/
theorem C85_amd64_quotient_counterexample : ¬ AllRight amd64 ∧
    outcome amd64 (regs0 ρ7) (.bin .div .w64 true (i64v 0) (.lit _ 2)) = some 9223372036854775804 :=
  ⟨not_allRight (.bin .div .w64 true (i64v 0) (.lit _ 2)) ρ7 (-3) (by simp only [WellTyped, i64v]; decide) (by decide +kernel)
    (by simp only [Loaded, AllVars, i64v]; decide) (by decide +kernel), by decide +kernel⟩

/-- amd64: `x / 1` for x = -7 of type i32 does not return at all: the quotient 2^32 - 7 is too large for the divide instruction's
signed result, and it traps. -/
theorem C85_amd64_trap_counterexample : outcome amd64 (regs0 ρ7) (.bin .div .w32 true (i32v 0) (.lit _ 1)) = none ∧
    eval ρ7 (.bin .div .w32 true (i32v 0) (.lit _ 1)) = some (-7) := ⟨by decide +kernel, by decide +kernel⟩

def ρ200 : Nat → Int := fun x => if x = 0 then 200 else 100

/-- arm64: `(x + y) < y` for x = 200 and y = 100 of type u8 is false although the sum wraps to 44: the carry stays in the register. -/
theorem C85_arm64_compare_counterexample : ¬ AllRight arm64 ∧
    outcome arm64 (regs0 ρ200) (.cmp .lt (.bin .add .w8 false (.var _ 0) (.var _ 1)) (.var _ 1)) = some 0 :=
  ⟨not_allRight (.cmp .lt (.bin .add .w8 false (.var _ 0) (.var _ 1)) (.var _ 1)) ρ200 1 (by simp only [WellTyped]; decide) (by decide +kernel)
    (by simp only [Loaded, AllVars]; decide) (by decide +kernel), by decide +kernel⟩

def ρ255 : Nat → Int := fun _ => 255

/-- arm64: `x as i8 as i64` for x = 255 of type u8 is 255, not -1: the sign extension looks at 32 bits. -/
theorem C85_arm64_extend_counterexample :
    outcome arm64 (regs0 ρ255) (.cast .w64 true (.cast .w8 true (.var (.int .w8 false) 0))) = some 255 ∧
    eval ρ255 (.cast .w64 true (.cast .w8 true (.var (.int .w8 false) 0))) = some (-1) := ⟨by decide +kernel, by decide +kernel⟩

/-- arm64: `x + (-5000)` is an undefined instruction. -/
theorem C85_arm64_literal_counterexample : ∀ st, outcome arm64 st (.bin .add .w64 true (i64v 0) (.lit _ (-5000))) = none := by
  intro st
  simp only [outcome, compile, arm64, Arm64.code, List.nil_append, List.flatMap_cons, List.flatMap_nil, List.append_nil]
  have e1 : ¬ (4095 : Int) < (BitVec.ofInt 64 (-5000)).toInt := by decide
  have e2 : Arm64.encodes .add (Arm64.native .w64) (BitVec.ofInt 64 (-5000)) = false := by decide
  simp only [Arm64.select, opcodeFor, binCode, Arm64.withImm, Arm64.inReg, Arm64.second, e1, if_false, List.nil_append, Arm64.run, Arm64.step, Kind.width, e2]
  rfl

def ρ0 : Nat → Int := fun _ => 0

/-- arm64: `0 > x` for the least i32, as a comparison with a literal, is wrong: `0 < -2147483648` holds. -/
theorem C85_arm64_least_counterexample :
    outcome arm64 (regs0 ρ0) (.cmp .lt (i32v 0) (.lit _ (-2147483648))) = some 1 ∧
    eval ρ0 (.cmp .lt (i32v 0) (.lit _ (-2147483648))) = some 0 := ⟨by decide +kernel, by decide +kernel⟩

def ρmax : Nat → Int := fun _ => 2147483647

/-- riscv64: `x + 1 > 0` for the largest i32 is true, although the sum wraps to the least. -/
theorem C85_riscv64_compare_counterexample : ¬ AllRight riscv64 ∧
    outcome riscv64 (regs0 ρmax) (.cmp .gt (.bin .add _ _ (i32v 0) (.lit _ 1)) (.lit _ 0)) = some 1 :=
  ⟨not_allRight (.cmp .gt (.bin .add _ _ (i32v 0) (.lit _ 1)) (.lit _ 0)) ρmax 0 (by simp only [WellTyped, i32v]; decide) (by decide +kernel)
    (by simp only [Loaded, AllVars, i32v]; decide) (by decide +kernel), by decide +kernel⟩

/-- riscv64: `x <= 18446744073709551615` is false. -/
theorem C85_riscv64_bound_counterexample :
    outcome riscv64 (regs0 ρ255) (.cmp .le (.var (.int .w64 false) 0) (.lit _ 18446744073709551615)) = some 0 ∧
    eval ρ255 (.cmp .le (.var (.int .w64 false) 0) (.lit _ 18446744073709551615)) = some 1 := ⟨by decide +kernel, by decide +kernel⟩

/-- riscv64: `x - (-2048)` has no encoding. -/
theorem C85_riscv64_literal_counterexample :
    outcome riscv64 (regs0 ρ255) (.bin .sub .w64 true (i64v 0) (.lit _ (-2048))) = none ∧
    eval ρ255 (.bin .sub .w64 true (i64v 0) (.lit _ (-2048))) = some 2303 := ⟨by decide +kernel, by decide +kernel⟩

end Nature.Arith
