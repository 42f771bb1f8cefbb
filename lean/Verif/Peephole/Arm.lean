import Verif.Peephole.Sim
/-!
# The arm64 rules and the pass
-/
namespace Nature.Peephole
variable {M : Type}

theorem run_append (I : Interp M) : ∀ (a b : List Op) (s : State M), run I (a ++ b) s = run I b (run I a s) := by
  intro a
  induction a with
  | nil => intro b s; rfl
  | cons op a ih => intro b s; exact ih b _

theorem useCount_append (v : Nat) : ∀ (a b : List Op), useCount (a ++ b) v = useCount a v + useCount b v := by
  intro a
  induction a with
  | nil => intro b; simp [useCount]
  | cons op a ih => intro b; simp only [List.cons_append, useCount, ih]; omega

/-- A replacement of instructions that only loses the variables of `D`. -/
structure Rule (cnt : Nat → Nat) (live : List Nat) (vt : Nat → Ty) (et : Nat → Ty → Ty) (old new : List Op) (D : Nat → Prop) : Prop where
  dead : ∀ v, D v → v ∉ live ∧ cnt v ≤ 1 ∧ 1 ≤ useCount old v
  uses : ∀ v, useCount old v = 0 → useCount new v = 0
  lowered : ∀ op ∈ new, Lowered vt et op
  sim : ∀ {M : Type} (I : Interp M) (s : State M), Sized I et → (∀ v, D v → useCount old v ≤ 1) → Agree D (run I old s) (run I new s)

theorem same_var {o : Option Operand} {t : Nat} {c d : Bool} (h : same o (some (.var t c d)) = true) : ∃ c' d', o = some (.var t c' d') := by
  cases o with
  | none => cases h
  | some o =>
    cases o with
    | var v c' d' =>
      simp only [same, decide_eq_true_eq] at h
      subst h
      exact ⟨c', d', rfl⟩
    | _ => cases h

theorem canRemove_iff {cnt : Nat → Nat} {live : List Nat} {v : Nat} : canRemove cnt live v = true ↔ v ∉ live ∧ cnt v ≤ 1 := by
  unfold canRemove
  simp

theorem useOut_sub (o : Option Operand) : ∀ v, v ∈ useOut o → v ∈ useIn o := by
  intro v h
  cases o with
  | none => exact h
  | some o => cases o <;> simp_all [useOut, useIn]

theorem count_useOut (o : Option Operand) (v : Nat) : (useOut o).count v ≤ (useIn o).count v := by
  cases o with
  | none => simp [useOut]
  | some o => cases o <;> simp [useOut, useIn]

theorem count_uses (op : Op) (v : Nat) : (uses op).count v = (useOut op.output).count v + (useIn op.first).count v + (useIn op.second).count v +
    (useIn op.addend).count v + op.args.count v := by
  unfold uses
  simp only [List.count_append]

theorem not_mem_of_count {l : List Nat} {v : Nat} (h : l.count v = 0) : v ∉ l := List.count_eq_zero.mp h

/-! ### Move elimination -/

theorem match1_spec {cnt : Nat → Nat} {live : List Nat} {op1 op2 op' : Op} (h : match1 cnt live op1 op2 = some op') :
    ∃ t c d c' d' out, eliminable op1.code = true ∧ op2.code = .move ∧ op1.output = some (.var t c d) ∧ op2.first = some (.var t c' d') ∧
      op2.output = some out ∧ useOut (some out) = [] ∧ (∀ n, out ≠ .imm n) ∧ t ∉ live ∧ cnt t ≤ 1 ∧ op' = { op1 with output := some out } := by
  unfold match1 at h
  split at h
  · cases h
  · rename_i h1
    split at h
    · cases h
    · rename_i h2
      split at h
      · rename_i t c d u c' d' out ho1 hf2 ho2
        split at h
        · cases h
        · rename_i hout
          split at h
          · cases h
          · split at h
            · cases h
            · rename_i htu
              split at h
              · cases h
              · rename_i hrem
                have ht : t = u := by omega
                subst ht
                have hr := canRemove_iff.mp (by simpa using hrem)
                refine ⟨t, c, d, c', d', out, by simpa using h1, by simpa using h2, ho1, hf2, ho2, ?_, ?_, hr.1, hr.2, (Option.some.inj h).symm⟩
                · cases out <;> simp_all [useOut, plain]
                · intro n hn; subst hn; simp [plain] at hout
      · cases h

theorem match1_rule {cnt : Nat → Nat} {live : List Nat} {vt : Nat → Ty} {et : Nat → Ty → Ty} {op1 op2 op' : Op}
    (l1 : Lowered vt et op1) (l2 : Lowered vt et op2) (h : match1 cnt live op1 op2 = some op') :
    (∃ D, Rule cnt live vt et [op1, op2] [op'] D) ∧ (∀ v, useCount [op'] v ≤ useCount [op1, op2] v) ∧ op'.code = op1.code ∧ op'.ty = op1.ty ∧
      op'.first = op1.first := by
  obtain ⟨t, c, d, c', d', out, h1, h2, h3, h4, h5, h6, h7, h8, h9, rfl⟩ := match1_spec h
  have k1 := known_of_elim h1
  have k2 : Known op2.code := by rw [h2]; intro k hk; cases hk
  obtain ⟨a1, a2, a3, a4, a5, a6, a7⟩ := lowered_known l1 k1
  obtain ⟨b1, b2, b3, b4, b5, b6, b7⟩ := lowered_known l2 k2
  have hty : outTy et op1 = op2.ty := by
    rw [h3] at a4
    rw [h4] at b1
    simp only [Typed] at a4 b1
    rw [← a4, ← b1]
  have hcount : ∀ v, useCount [{ op1 with output := some out }] v ≤ useCount [op1, op2] v := by
    intro v
    simp only [useCount, count_uses, h6, h3]
    simp [useOut] <;> omega
  refine ⟨⟨fun v => v = t, ?_, ?_, ?_, ?_⟩, hcount, rfl, rfl, rfl⟩
  · rintro v rfl
    refine ⟨h8, h9, ?_⟩
    have h4' : useIn (some (Operand.var v c' d')) = [v] := rfl
    simp only [useCount, count_uses, h4, h4', List.count_singleton_self]
    omega
  · intro v hv
    have := hcount v
    omega
  · intro op hop
    rw [List.mem_singleton] at hop
    subst hop
    have : Typed vt (outTy et op1) (some out) := by
      rw [hty]
      rw [h5] at b4
      have : outTy et op2 = op2.ty := by unfold outTy; rw [h2]
      rw [this] at b4
      exact b4
    have goal : Typed vt op1.ty op1.first ∧ Typed vt op1.ty op1.second ∧ Typed vt op1.ty op1.addend ∧ Typed vt (outTy et op1) (some out) ∧
      (op1.ty.float = true → ∀ n, op1.second ≠ some (.imm n)) ∧ op1.args = [] ∧ op1.defs = [] := ⟨a1, a2, a3, this, a5, a6, a7⟩
    unfold Lowered
    simp only
    split
    · trivial
    · exact goal
  · intro M I s hI _
    simp only [run]
    rw [step_known k1 s, step_known k2, step_known (op := { op1 with output := some out }) k1 s, h2, h3, h4, h5]
    generalize hr : compute I op1.code op1.ty (evalOpt I s op1.first) (evalOpt I s op1.second) (evalOpt I s op1.addend) = r
    have hcut : cut op2.ty.width r = r := by
      rw [← hty, ← hr]
      exact compute_sized hI h1 ..
    have he : evalOpt I (put I s r (some (.var t c d))) (some (.var t c' d')) = r := by simp [evalOpt, eval, put]
    show Agree _ (put I _ (cut op2.ty.width (evalOpt I (put I s r (some (.var t c d))) (some (.var t c' d')))) (some out)) _
    rw [he, hcut]
    have base : Agree (fun v => v = t) (put I s r (some (.var t c d))) s := by
      refine ⟨rfl, rfl, ?_⟩
      intro v hv
      simp [put, hv]
    exact put_agree base (by rw [h6]; simp) r

theorem match2_spec {cnt : Nat → Nat} {live : List Nat} {op1 op2 op' : Op} (h : match2 cnt live op1 op2 = some op') :
    ∃ t c d src c' d', op1.code = .move ∧ eliminable op2.code = true ∧ op1.first = some src ∧ op1.output = some (.var t c d) ∧
      t ∉ live ∧ cnt t ≤ 1 ∧ ((op2.second = some (.var t c' d') ∧ op' = { op2 with second := some src }) ∨
        (op2.first = some (.var t c' d') ∧ op' = { op2 with first := some src })) ∧ same op2.output (some src) = true := by
  unfold match2 at h
  split at h
  · cases h
  · rename_i h1
    split at h
    · cases h
    · rename_i h2
      split at h
      · rename_i src t c d hf ho
        split at h
        · cases h
        · rename_i hrem
          have hr := canRemove_iff.mp (by simpa using hrem)
          split at h
          · rename_i hs
            split at h
            · cases h
            · rename_i hso
              obtain ⟨c', d', hs⟩ := same_var hs
              exact ⟨t, c, d, src, c', d', by simpa using h1, by simpa using h2, hf, ho, hr.1, hr.2, .inl ⟨hs, (Option.some.inj h).symm⟩, by simpa using hso⟩
          · split at h
            · rename_i hs
              split at h
              · cases h
              · rename_i hso
                obtain ⟨c', d', hs⟩ := same_var hs
                exact ⟨t, c, d, src, c', d', by simpa using h1, by simpa using h2, hf, ho, hr.1, hr.2, .inr ⟨hs, (Option.some.inj h).symm⟩, by simpa using hso⟩
            · cases h
      · cases h

theorem same_not_imm {o : Option Operand} {src : Operand} (h : same o (some src) = true) (n : Int) : src ≠ .imm n := by
  rintro rfl
  cases o with
  | none => cases h
  | some o => cases o <;> cases h

theorem match2_rule {cnt : Nat → Nat} {live : List Nat} {vt : Nat → Ty} {et : Nat → Ty → Ty} {op1 op2 op' : Op}
    (l1 : Lowered vt et op1) (l2 : Lowered vt et op2) (h : match2 cnt live op1 op2 = some op') :
    (∃ D, Rule cnt live vt et [op1, op2] [op'] D) ∧ (∀ v, useCount [op'] v ≤ useCount [op1, op2] v) ∧ op'.code = op2.code ∧ op'.ty = op2.ty ∧
      (∀ n, op'.first = some (.imm n) → op2.first = some (.imm n)) := by
  obtain ⟨t, c, d, src, c', d', h1, h2, h3, h4, h5, h6, h7, h8⟩ := match2_spec h
  have k1 : Known op1.code := by rw [h1]; intro k hk; cases hk
  have k2 := known_of_elim h2
  obtain ⟨a1, a2, a3, a4, a5, a6, a7⟩ := lowered_known l1 k1
  obtain ⟨b1, b2, b3, b4, b5, b6, b7⟩ := lowered_known l2 k2
  have hot : outTy et op1 = op1.ty := by unfold outTy; rw [h1]
  rw [hot, h4] at a4
  rw [h3] at a1
  have step1 : ∀ {M : Type} (I : Interp M) (s : State M), step I op1 s = put I s (cut op1.ty.width (evalOpt I s (some src))) (some (.var t c d)) := by
    intro M I s
    rw [step_known k1 s, h1, h3, h4]
    rfl
  have base : ∀ {M : Type} (I : Interp M) (s : State M) (x : Int), Agree (fun v => v = t) (put I s x (some (.var t c d))) s := by
    intro M I s x
    refine ⟨rfl, rfl, ?_⟩
    intro v hv
    simp [put, hv]
  rcases h7 with ⟨h7, rfl⟩ | ⟨h7, rfl⟩
  · have hty : op1.ty = op2.ty := by
      rw [h7] at b2
      simp only [Typed] at a4 b2
      rw [← a4, ← b2]
    have hcount : ∀ v, useCount [{ op2 with second := some src }] v ≤ useCount [op1, op2] v := by
      intro v
      simp only [useCount, count_uses, h3]
      omega
    refine ⟨⟨fun v => v = t, ?_, ?_, ?_, ?_⟩, hcount, rfl, rfl, fun n hn => hn⟩
    · rintro v rfl
      refine ⟨h5, h6, ?_⟩
      have h7' : useIn (some (Operand.var v c' d')) = [v] := rfl
      simp only [useCount, count_uses, h7, h7', List.count_singleton_self]
      omega
    · intro v hv
      have := hcount v
      omega
    · intro op hop
      rw [List.mem_singleton] at hop
      subst hop
      have goal : Typed vt op2.ty op2.first ∧ Typed vt op2.ty (some src) ∧ Typed vt op2.ty op2.addend ∧ Typed vt (outTy et op2) op2.output ∧
        (op2.ty.float = true → ∀ n, some src ≠ some (.imm n)) ∧ op2.args = [] ∧ op2.defs = [] :=
        ⟨b1, by rw [← hty]; exact a1, b3, b4, fun _ n hn => same_not_imm h8 n (Option.some.inj hn), b6, b7⟩
      unfold Lowered
      simp only
      split
      · trivial
      · exact goal
    · intro M I s hI hone
      have hone := hone t rfl
      have h7' : useIn (some (Operand.var t c' d')) = [t] := rfl
      simp only [useCount, count_uses, h7, h7', List.count_singleton_self] at hone
      simp only [run]
      rw [step1 I s, step_known k2, step_known (op := { op2 with second := some src }) k2 s]
      simp only
      rw [h7]
      generalize evalOpt I s (some src) = x
      have he : evalOpt I (put I s (cut op1.ty.width x) (some (.var t c d))) (some (.var t c' d')) = cut op2.ty.width x := by
        rw [hty]; simp [evalOpt, eval, put]
      have ag := base I s (cut op1.ty.width x)
      rw [he, (compute_cut h2 _ _ _ _).2, eval_agree (I := I) ag (o := op2.first) (by rintro v hv rfl; exact not_mem_of_count (by omega) hv),
        eval_agree (I := I) ag (o := op2.addend) (by rintro v hv rfl; exact not_mem_of_count (by omega) hv)]
      exact put_agree ag (by rintro v hv rfl; exact not_mem_of_count (by omega) hv) _
  · have hty : op1.ty = op2.ty := by
      rw [h7] at b1
      simp only [Typed] at a4 b1
      rw [← a4, ← b1]
    have hcount : ∀ v, useCount [{ op2 with first := some src }] v ≤ useCount [op1, op2] v := by
      intro v
      simp only [useCount, count_uses, h3]
      omega
    refine ⟨⟨fun v => v = t, ?_, ?_, ?_, ?_⟩, hcount, rfl, rfl, fun n hn => absurd (Option.some.inj hn) (same_not_imm h8 n)⟩
    · rintro v rfl
      refine ⟨h5, h6, ?_⟩
      have h7' : useIn (some (Operand.var v c' d')) = [v] := rfl
      simp only [useCount, count_uses, h7, h7', List.count_singleton_self]
      omega
    · intro v hv
      have := hcount v
      omega
    · intro op hop
      rw [List.mem_singleton] at hop
      subst hop
      have goal : Typed vt op2.ty (some src) ∧ Typed vt op2.ty op2.second ∧ Typed vt op2.ty op2.addend ∧ Typed vt (outTy et op2) op2.output ∧
        (op2.ty.float = true → ∀ n, op2.second ≠ some (.imm n)) ∧ op2.args = [] ∧ op2.defs = [] :=
        ⟨by rw [← hty]; exact a1, b2, b3, b4, b5, b6, b7⟩
      unfold Lowered
      simp only
      split
      · trivial
      · exact goal
    · intro M I s hI hone
      have hone := hone t rfl
      have h7' : useIn (some (Operand.var t c' d')) = [t] := rfl
      simp only [useCount, count_uses, h7, h7', List.count_singleton_self] at hone
      simp only [run]
      rw [step1 I s, step_known k2, step_known (op := { op2 with first := some src }) k2 s]
      simp only
      rw [h7]
      generalize evalOpt I s (some src) = x
      have he : evalOpt I (put I s (cut op1.ty.width x) (some (.var t c d))) (some (.var t c' d')) = cut op2.ty.width x := by
        rw [hty]; simp [evalOpt, eval, put]
      have ag := base I s (cut op1.ty.width x)
      rw [he, (compute_cut h2 _ _ _ _).1, eval_agree (I := I) ag (o := op2.second) (by rintro v hv rfl; exact not_mem_of_count (by omega) hv),
        eval_agree (I := I) ag (o := op2.addend) (by rintro v hv rfl; exact not_mem_of_count (by omega) hv)]
      exact put_agree ag (by rintro v hv rfl; exact not_mem_of_count (by omega) hv) _

end Nature.Peephole
