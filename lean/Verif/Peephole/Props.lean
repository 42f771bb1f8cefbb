import Verif.Peephole.Amd
/-!
# C100: the peephole pass does not change what a block does

`Lir.lean` gives instructions their meaning, independent of the pass.  `Same live s s'` compares what is visible behind the block.
-/
namespace Nature.Peephole

/-- **C100, arm64, one pass.** With the use counts of the block itself, one pass over it (all rules, whatever the block contains)
keeps its effect, for every meaning of the other instructions. -/
theorem C100_arm_pass (vt : Nat → Ty) (et : Nat → Ty → Ty) (live : List Nat) (ops out : List Op) (changed : Bool)
    (hl : ∀ op ∈ ops, Lowered vt et op) (hi : ∀ op ∈ ops, op.code = .mul → op.ty.float = false)
    (h : armPass (useCount ops) live (ops.length + 1) ops = some (changed, out)) {M : Type} (I : Interp M) (hI : Sized I et) (s : State M) :
    Same live (run I ops s) (run I out s) := by
  obtain ⟨_, sim⟩ := armPass_ok _ _ _ _ h (fun _ h => h) hl hi
  obtain ⟨D', d1, d2⟩ := sim I hI (fun _ => False) s s (Agree.refl s) (fun _ h => h.elim)
  exact ⟨d2.regs, d2.mem, fun v hv => d2.vars v fun h => d1 v h hv⟩

/-- **C100, arm64, in part.** All passes over a block keep its effect if nothing is multiplied by the constant two and no floating point
numbers are multiplied. -/
theorem C100_arm_block_partial (vt : Nat → Ty) (et : Nat → Ty → Ty) (live : List Nat) (ops out : List Op)
    (hl : ∀ op ∈ ops, Lowered vt et op) (hi : ∀ op ∈ ops, op.code = .mul → op.ty.float = false)
    (ht : ∀ op ∈ ops, op.code = .move → op.first ≠ some (.imm 2))
    (h : armBlock live ops = some out) {M : Type} (I : Interp M) (hI : Sized I et) (s : State M) :
    Same live (run I ops s) (run I out s) :=
  armIter_ok 5 ops out h (fun _ => Nat.le_refl _) hl hi ht I hI s

/-- **C100, amd64.** All passes over a block keep its effect. -/
theorem C100_amd_block (vt : Nat → Ty) (et : Nat → Ty → Ty) (live : List Nat) (ops : List Op)
    (hl : ∀ op ∈ ops, Lowered vt et op)
    (hv : ∀ op ∈ ops, (op.code = .add ∨ op.code = .sub) → ∃ v c d, op.first = some (.var v c d))
    {M : Type} (I : Interp M) (hI : Sized I et) (s : State M) : Same live (run I ops s) (run I (amdBlock live ops) s) :=
  amdIter_ok 5 ops (fun _ => Nat.le_refl _) hl hv I hI s

/-! ### The use counts are not brought up to date between passes -/

/-- 64-bit integers. -/
def int64 : Ty := ⟨64, false⟩

/-- A variable operand. -/
def v (n : Nat) : Option Operand := some (.var n false false)

/-- `(v1 * v2) * 2` into `v5`, as lowered for arm64. -/
def twice : List Op := [⟨.mul, int64, v 1, v 2, none, v 3, [], []⟩, ⟨.move, int64, some (.imm 2), none, none, v 4, [], []⟩,
  ⟨.mul, int64, v 3, v 4, none, v 5, [], []⟩]

/-- Some meaning of the rest. -/
def plainInterp : Interp Unit := ⟨fun _ _ _ _ => 0, fun _ _ _ m _ => m, fun _ _ _ _ => 0, fun _ _ _ => 0, fun _ _ _ => 0, fun _ _ _ => 0,
  fun _ _ _ _ => 0, fun _ _ _ _ => 0, fun _ _ _ _ => 0, fun _ _ _ _ _ _ r m => (0, fun _ => 0, r, m)⟩

theorem plain_sized : Sized plainInterp (fun _ t => t) := by
  refine ⟨?_, ?_, ?_, ?_, ?_, ?_, ?_⟩ <;> intros <;> simp [plainInterp, cut]

theorem twice_lowered : ∀ op ∈ twice, Lowered (fun _ => int64) (fun _ t => t) op := by
  intro op hop
  simp only [twice, List.mem_cons, List.not_mem_nil, or_false] at hop
  rcases hop with rfl | rfl | rfl <;> refine ⟨by first | rfl | trivial, by first | rfl | trivial, trivial, by first | rfl | trivial, fun h => absurd h (by decide), rfl, rfl⟩

/-- **C100 is false for arm64.** `(3 * 5) * 2` is 30, the rewritten block computes `3 * 5 + v3` where `v3` is no longer assigned: the first
pass turns the doubling into `v3 + v3`, the second one still counts one use of `v3` and removes its definition. -/
theorem C100_arm_counterexample :
    armBlock [5] twice = some [⟨.madd, int64, v 1, v 2, v 3, v 5, [], []⟩] ∧
    ∃ s : State Unit, (run plainInterp twice s).vars 5 = 30 ∧
      ∀ out, armBlock [5] twice = some out → (run plainInterp out s).vars 5 = 15 := by
  have h : armBlock [5] twice = some [⟨.madd, int64, v 1, v 2, v 3, v 5, [], []⟩] := by decide +kernel
  refine ⟨h, ⟨fun n => if n = 1 then 3 else if n = 2 then 5 else 0, fun _ => 0, ()⟩, by decide +kernel, ?_⟩
  intro out ho
  rw [h] at ho
  cases ho
  decide +kernel

/-- A floating point multiplication followed by an addition. -/
def fused : List Op := [⟨.mul, ⟨64, true⟩, v 1, v 2, none, v 3, [], []⟩, ⟨.add, ⟨64, true⟩, v 3, v 4, none, v 5, [], []⟩]

/-- **C100 is false for floating point on arm64** wherever rounding once differs from rounding twice: `a * b + c` is computed by a
fused instruction. -/
theorem C100_float_counterexample {M : Type} (I : Interp M) (m : M) (a b c : Int)
    (h : I.ffma 64 (cut 64 a) (cut 64 b) (cut 64 c) ≠ I.fadd 64 (cut 64 (I.fmul 64 (cut 64 a) (cut 64 b))) (cut 64 c)) :
    ∃ out, armBlock [5] fused = some out ∧ ∃ s : State M, ¬ Same [5] (run I fused s) (run I out s) := by
  refine ⟨[⟨.fmadd, ⟨64, true⟩, v 1, v 2, v 4, v 5, [], []⟩], by decide +kernel, ?_⟩
  refine ⟨⟨fun n => if n = 1 then a else if n = 2 then b else c, fun _ => 0, m⟩, ?_⟩
  intro hs
  have := hs.2.2 5 (by simp)
  simp [run, fused, step, compute, put, v, evalOpt, eval] at this
  exact h this.symm

/-! ### Cases that meet the hypotheses -/

/-- `v5 := v4 + v1 * v2`, with the product moved once, and a copy back to a register. -/
def sample : List Op := [⟨.mul, int64, v 1, v 2, none, v 3, [], []⟩, ⟨.add, int64, v 4, v 3, none, v 5, [], []⟩,
  ⟨.add, int64, v 5, some (.imm 7), none, v 6, [], []⟩, ⟨.move, int64, v 6, none, none, some (.reg 0), [], []⟩]

example : armBlock [] sample = some [⟨.madd, int64, v 1, v 2, v 4, v 5, [], []⟩, ⟨.add, int64, v 5, some (.imm 7), none, some (.reg 0), [], []⟩] := by
  decide +kernel

example : ∀ op ∈ sample, Lowered (fun _ => int64) (fun _ t => t) op := by
  intro op hop
  simp only [sample, List.mem_cons, List.not_mem_nil, or_false] at hop
  rcases hop with rfl | rfl | rfl | rfl <;> refine ⟨by first | rfl | trivial, by first | rfl | trivial, trivial, by first | rfl | trivial, fun h => absurd h (by decide), rfl, rfl⟩

example : (∀ op ∈ sample, op.code = .mul → op.ty.float = false) ∧ ∀ op ∈ sample, op.code = .move → op.first ≠ some (.imm 2) := by decide

/-- `v6 := v1 * 8 - 3` on amd64. -/
def scaled : List Op := [⟨.mul, int64, v 1, some (.imm 8), none, v 2, [], []⟩, ⟨.move, int64, v 2, none, none, v 3, [], []⟩,
  ⟨.sub, int64, v 3, some (.imm 3), none, v 3, [], []⟩, ⟨.move, int64, v 3, none, none, v 6, [], []⟩]

example : amdBlock [6] scaled = [⟨.lea false 8 (-3), int64, v 1, none, none, v 3, [], []⟩, ⟨.move, int64, v 3, none, none, v 6, [], []⟩] := by decide +kernel

end Nature.Peephole
