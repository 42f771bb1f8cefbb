import Verif.Peephole.Model
/-!
# Simulation up to dead variables
-/
namespace Nature.Peephole
variable {M : Type}

/-- Equal except for the variables of `D`. -/
structure Agree (D : Nat → Prop) (s s' : State M) : Prop where
  regs : s.regs = s'.regs
  mem : s.mem = s'.mem
  vars : ∀ v, ¬ D v → s.vars v = s'.vars v

theorem Agree.refl {D : Nat → Prop} (s : State M) : Agree D s s := ⟨rfl, rfl, fun _ _ => rfl⟩

theorem Agree.trans {D E : Nat → Prop} {a b c : State M} (h : Agree D a b) (k : Agree E b c) : Agree (fun v => D v ∨ E v) a c :=
  ⟨h.regs.trans k.regs, h.mem.trans k.mem, fun v hv => (h.vars v fun x => hv (.inl x)).trans (k.vars v fun x => hv (.inr x))⟩

theorem Agree.mono {D E : Nat → Prop} {a b : State M} (h : Agree D a b) (k : ∀ v, D v → E v) : Agree E a b :=
  ⟨h.regs, h.mem, fun v hv => h.vars v fun x => hv (k v x)⟩

theorem map_agree {D : Nat → Prop} {s s' : State M} (h : Agree D s s') : ∀ (l : List Nat), (∀ v ∈ l, ¬ D v) → l.map s.vars = l.map s'.vars :=
  fun _ hl => List.map_congr_left fun v hv => h.vars v (hl v hv)

theorem eval_agree {I : Interp M} {D : Nat → Prop} {s s' : State M} (h : Agree D s s') {o : Option Operand} (hu : ∀ v ∈ useIn o, ¬ D v) :
    evalOpt I s o = evalOpt I s' o := by
  cases o with
  | none => rfl
  | some o =>
    cases o with
    | var v c d => exact h.vars v (hu v (by simp [useIn]))
    | reg r => show s.regs r = s'.regs r; rw [h.regs]
    | imm n => rfl
    | mem k l =>
      show I.load k (l.map s.vars) s.regs s.mem = I.load k (l.map s'.vars) s'.regs s'.mem
      rw [map_agree h l hu, h.regs, h.mem]

theorem put_agree {I : Interp M} {D : Nat → Prop} {s s' : State M} (h : Agree D s s') {o : Option Operand} (hu : ∀ v ∈ useOut o, ¬ D v)
    (x : Int) : Agree D (put I s x o) (put I s' x o) := by
  cases o with
  | none => exact h
  | some o =>
    cases o with
    | var v c d =>
      refine ⟨h.regs, h.mem, ?_⟩
      intro u hu'
      simp only [put]
      split
      · rfl
      · exact h.vars u hu'
    | reg r => exact ⟨by simp only [put, h.regs], h.mem, h.vars⟩
    | imm n => exact h
    | mem k l => exact ⟨h.regs, by simp only [put]; rw [map_agree h l hu, h.regs, h.mem], h.vars⟩

/-- Not an opaque instruction. -/
def Known (c : Code) : Prop := ∀ k, c ≠ .other k

theorem step_known {I : Interp M} {op : Op} (h : Known op.code) (s : State M) :
    step I op s = put I s (compute I op.code op.ty (evalOpt I s op.first) (evalOpt I s op.second) (evalOpt I s op.addend)) op.output := by
  unfold step
  simp only
  split
  · rename_i k hk
    exact absurd hk (h k)
  · rfl

theorem step_agree {I : Interp M} {D : Nat → Prop} {s s' : State M} (h : Agree D s s') {op : Op} (hu : ∀ v ∈ uses op, ¬ D v) :
    Agree D (step I op s) (step I op s') := by
  unfold uses at hu
  simp only [List.mem_append, or_imp, forall_and] at hu
  obtain ⟨⟨⟨⟨h1, h2⟩, h3⟩, h4⟩, h5⟩ := hu
  have e1 := eval_agree (I := I) h h2
  have e2 := eval_agree (I := I) h h3
  have e3 := eval_agree (I := I) h h4
  unfold step
  simp only
  rw [e1, e2, e3, map_agree h _ h5, h.regs, h.mem]
  split
  · rename_i k hk
    have base : Agree D (M := M)
        ⟨fun u => if u ∈ op.defs then (I.other k op.ty (evalOpt I s' op.first) (evalOpt I s' op.second) (evalOpt I s' op.addend) (op.args.map s'.vars) s'.regs s'.mem).2.1 u else s.vars u,
          (I.other k op.ty (evalOpt I s' op.first) (evalOpt I s' op.second) (evalOpt I s' op.addend) (op.args.map s'.vars) s'.regs s'.mem).2.2.1,
          (I.other k op.ty (evalOpt I s' op.first) (evalOpt I s' op.second) (evalOpt I s' op.addend) (op.args.map s'.vars) s'.regs s'.mem).2.2.2⟩
        ⟨fun u => if u ∈ op.defs then (I.other k op.ty (evalOpt I s' op.first) (evalOpt I s' op.second) (evalOpt I s' op.addend) (op.args.map s'.vars) s'.regs s'.mem).2.1 u else s'.vars u,
          (I.other k op.ty (evalOpt I s' op.first) (evalOpt I s' op.second) (evalOpt I s' op.addend) (op.args.map s'.vars) s'.regs s'.mem).2.2.1,
          (I.other k op.ty (evalOpt I s' op.first) (evalOpt I s' op.second) (evalOpt I s' op.addend) (op.args.map s'.vars) s'.regs s'.mem).2.2.2⟩ := by
      refine ⟨rfl, rfl, ?_⟩
      intro v hv
      simp only
      split
      · rfl
      · exact h.vars v hv
    split
    · rename_i v c d ho
      refine ⟨rfl, rfl, ?_⟩
      intro u hu
      simp only
      split
      · rfl
      · exact base.vars u hu
    · exact ⟨rfl, rfl, base.vars⟩
    · rename_i k' l ho
      rw [ho] at h1
      refine ⟨rfl, ?_, base.vars⟩
      simp only
      rw [map_agree h l h1]
    · exact base
  · exact put_agree h h1 _

theorem useCount_zero {ops : List Op} {v : Nat} : useCount ops v = 0 ↔ ∀ op ∈ ops, v ∉ uses op := by
  induction ops with
  | nil => simp [useCount]
  | cons op ops ih =>
    simp only [useCount, Nat.add_eq_zero_iff, ih, List.mem_cons, forall_eq_or_imp, List.count_eq_zero]

theorem run_agree {I : Interp M} {D : Nat → Prop} : ∀ (ops : List Op) {s s' : State M}, Agree D s s' → (∀ v, D v → useCount ops v = 0) →
    Agree D (run I ops s) (run I ops s') := by
  intro ops
  induction ops with
  | nil => intro s s' h _; exact h
  | cons op ops ih =>
    intro s s' h hu
    refine ih (step_agree h ?_) ?_
    · intro v hv hd
      exact (useCount_zero.mp (hu v hd)) op (List.mem_cons_self) hv
    · intro v hd
      have := hu v hd
      simp only [useCount] at this
      omega

/-! ### Values -/

theorem cut_cut (w : Nat) (x : Int) : cut w (cut w x) = cut w x := Int.emod_emod_of_dvd x (Int.dvd_refl _)

theorem cut_add (w : Nat) (x y : Int) : cut w (cut w x + y) = cut w (x + y) := by unfold cut; exact Int.emod_add_emod ..
theorem cut_add' (w : Nat) (x y : Int) : cut w (x + cut w y) = cut w (x + y) := by unfold cut; exact Int.add_emod_emod ..
theorem cut_sub (w : Nat) (x y : Int) : cut w (cut w x - y) = cut w (x - y) := by unfold cut; exact Int.emod_sub_emod ..
theorem cut_sub' (w : Nat) (x y : Int) : cut w (x - cut w y) = cut w (x - y) := by unfold cut; exact Int.sub_emod_emod ..
theorem cut_mul (w : Nat) (x y : Int) : cut w (cut w x * y) = cut w (x * y) := by
  unfold cut
  rw [Int.mul_emod, Int.emod_emod_of_dvd x (Int.dvd_refl _), ← Int.mul_emod]
theorem cut_mul' (w : Nat) (x y : Int) : cut w (x * cut w y) = cut w (x * y) := by rw [Int.mul_comm, cut_mul, Int.mul_comm]

/-- Results of arithmetic only depend on the bits of the operands. -/
theorem compute_cut {I : Interp M} {code : Code} (h : eliminable code = true) (ty : Ty) (a b c : Int) :
    compute I code ty (cut ty.width a) b c = compute I code ty a b c ∧ compute I code ty a (cut ty.width b) c = compute I code ty a b c := by
  cases code <;> simp only [eliminable, Bool.false_eq_true] at h <;> simp only [compute]
  · exact ⟨cut_cut .., trivial⟩
  · split
    · simp [cut_cut]
    · exact ⟨cut_add .., cut_add' ..⟩
  · split
    · simp [cut_cut]
    · exact ⟨cut_sub .., cut_sub' ..⟩
  · split
    · simp [cut_cut]
    · exact ⟨cut_mul .., cut_mul' ..⟩
  · simp [cut_cut]

/-- And have the type of the result. -/
theorem compute_sized {I : Interp M} {et : Nat → Ty → Ty} (hI : Sized I et) {op : Op} (h : eliminable op.code = true) (a b c : Int) :
    cut (outTy et op).width (compute I op.code op.ty a b c) = compute I op.code op.ty a b c := by
  obtain ⟨i1, i2, i3, i4, _⟩ := hI
  unfold outTy
  cases hc : op.code <;> rw [hc] at h <;> simp only [eliminable, Bool.false_eq_true] at h <;> simp only [compute]
  · exact cut_cut ..
  · split
    · exact i2 ..
    · exact cut_cut ..
  · split
    · exact i3 ..
    · exact cut_cut ..
  · split
    · exact i4 ..
    · exact cut_cut ..
  · exact i1 ..

theorem known_of_elim {c : Code} (h : eliminable c = true) : Known c := by
  intro k hk
  rw [hk] at h
  cases h

theorem lowered_known {vt : Nat → Ty} {et : Nat → Ty → Ty} {op : Op} (h : Lowered vt et op) (hk : Known op.code) :
    Typed vt op.ty op.first ∧ Typed vt op.ty op.second ∧ Typed vt op.ty op.addend ∧ Typed vt (outTy et op) op.output ∧
      (op.ty.float = true → ∀ n, op.second ≠ some (.imm n)) ∧ op.args = [] ∧ op.defs = [] := by
  unfold Lowered at h
  split at h
  · rename_i k hc
    exact absurd hc (hk k)
  · exact h

end Nature.Peephole
