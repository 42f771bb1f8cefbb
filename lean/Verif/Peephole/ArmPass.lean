import Verif.Peephole.Arm
/-!
# Fused operations, doubling, and the whole pass
-/
namespace Nature.Peephole
variable {M : Type}

theorem var_agree (I : Interp M) (s : State M) (x : Int) (t : Nat) (c d : Bool) : Agree (fun v => v = t) (put I s x (some (.var t c d))) s := by
  refine ⟨rfl, rfl, ?_⟩
  intro v hv
  simp [put, hv]

theorem eval_put (I : Interp M) (s : State M) (x : Int) (t : Nat) (c d c' d' : Bool) :
    evalOpt I (put I s x (some (.var t c d))) (some (.var t c' d')) = x := by simp [evalOpt, eval, put]

/-! ### Subtraction of an immediate -/

theorem negSub_uses (op : Op) : uses (negSub op) = uses op := by
  unfold negSub
  split
  · rename_i n hc hs
    unfold uses
    simp [hs, useIn]
  · rfl

theorem negSub_step {vt : Nat → Ty} {et : Nat → Ty → Ty} {op : Op} (l : Lowered vt et op) (I : Interp M) (s : State M) :
    step I (negSub op) s = step I op s := by
  unfold negSub
  split
  · rename_i n hc hs
    have k : Known op.code := by rw [hc]; intro k hk; cases hk
    obtain ⟨_, _, _, _, l5, _⟩ := lowered_known l k
    have hf : op.ty.float = false := by
      cases h : op.ty.float with
      | false => rfl
      | true => exact absurd hs (l5 h n)
    rw [step_known k, step_known (by intro k hk; cases hk)]
    simp only [hc, hs, compute, hf, Bool.false_eq_true, if_false, evalOpt, eval]
    rw [Int.sub_eq_add_neg]
  · rfl

theorem negSub_lowered {vt : Nat → Ty} {et : Nat → Ty → Ty} {op : Op} (l : Lowered vt et op) : Lowered vt et (negSub op) := by
  unfold negSub
  split
  · rename_i n hc hs
    have k : Known op.code := by rw [hc]; intro k hk; cases hk
    obtain ⟨l1, l2, l3, l4, l5, l6, l7⟩ := lowered_known l k
    refine ⟨l1, trivial, l3, ?_, ?_, l6, l7⟩
    · unfold outTy at l4 ⊢
      rw [hc] at l4
      exact l4
    · intro h m hm
      exact l5 h n hs
  · exact l

theorem negSub_code (op : Op) : (negSub op).ty = op.ty ∧ (negSub op).output = op.output ∧ (negSub op).first = op.first ∧
    ((negSub op).code = op.code ∨ (negSub op).code = .add) ∧ (negSub op).args = op.args ∧ (negSub op).addend = op.addend ∧
    (op.code ≠ .sub → negSub op = op) := by
  unfold negSub
  split
  · rename_i n hc hs
    exact ⟨rfl, rfl, rfl, .inr rfl, rfl, rfl, fun h => absurd hc h⟩
  · exact ⟨rfl, rfl, rfl, .inl rfl, rfl, rfl, fun _ => rfl⟩

/-! ### Fused multiplication -/

/-- The next instruction is kept up to a subtraction turned into an addition. -/
theorem fma_no {cnt : Nat → Nat} {live : List Nat} {mul next next' : Op} (h : fma cnt live mul next = .no next') :
    next' = next ∨ next' = negSub next := by
  unfold fma at h
  simp only at h
  split at h
  · exact .inl (Fma.no.inj h).symm
  · split at h
    · split at h
      · exact .inl (Fma.no.inj h).symm
      · split at h
        · exact .inl (Fma.no.inj h).symm
        · split at h
          · exact .inr (Fma.no.inj h).symm
          · split at h
            · exact .inr (Fma.no.inj h).symm
            · split at h
              · split at h
                · cases h
                · split at h
                  · cases h
                  · exact .inr (Fma.no.inj h).symm
              · cases h
    · exact .inl (Fma.no.inj h).symm

theorem fma_spec {cnt : Nat → Nat} {live : List Nat} {mul next op : Op} (hint : mul.ty.float = false) (h : fma cnt live mul next = .fused op) :
    ∃ t c d a ac ad b bc bd o oc od, mul.code = .mul ∧ mul.output = some (.var t c d) ∧ t ∉ live ∧ cnt t ≤ 1 ∧
      mul.first = some (.var a ac ad) ∧ mul.second = some (.var b bc bd) ∧
      ((next.code = .add ∧ (∃ c' d', (next.first = some (.var t c' d') ∧ next.second = some (.var o oc od)) ∨
          (next.second = some (.var t c' d') ∧ next.first = some (.var o oc od))) ∧
        op = { next with code := .madd, first := some (.var a ac ad), second := some (.var b bc bd), addend := some (.var o oc od) }) ∨
      (next.code = .sub ∧ (∃ c' d', next.second = some (.var t c' d') ∧ next.first = some (.var o oc od)) ∧
        op = { next with code := .msub, first := some (.var a ac ad), second := some (.var b bc bd), addend := some (.var o oc od) })) := by
  unfold fma at h
  simp only [hint, Bool.false_eq_true, if_false] at h
  split at h
  · cases h
  · rename_i hmul
    split at h
    · rename_i t c d hout
      split at h
      · cases h
      · rename_i hcode
        split at h
        · cases h
        · rename_i hrem
          have hr := canRemove_iff.mp (by simpa using hrem)
          split at h
          · cases h
          · rename_i o hother
            split at h
            · cases h
            · rename_i code hc
              split at h
              · rename_i a ac ad b bc bd hf hs
                split at h
                · rename_i o' oc od
                  have h := Fma.fused.inj h
                  refine ⟨t, c, d, a, ac, ad, b, bc, bd, o', oc, od, by simpa using hmul, hout, hr.1, hr.2, hf, hs, ?_⟩
                  -- the addend is a variable, so no immediate was negated
                  have hn : negSub next = next := by
                    unfold negSub
                    split
                    · rename_i n hc' hs'
                      exfalso
                      simp only [negSub, hc', hs'] at hother
                      split at hother
                      · cases hother
                      · rename_i hl
                        split at hother
                        · rename_i hs2
                          simp only [same] at hs2
                          cases hs2
                        · cases hother
                    · rfl
                  rw [hn] at h hc hother
                  by_cases hadd : next.code = .add
                  · left
                    rw [if_pos hadd] at hc
                    cases hc
                    refine ⟨hadd, ?_, h.symm⟩
                    split at hother
                    · rename_i hl
                      obtain ⟨c', d', hl⟩ := same_var hl
                      exact ⟨c', d', .inl ⟨hl, hother⟩⟩
                    · split at hother
                      · rename_i hl
                        obtain ⟨c', d', hl⟩ := same_var hl
                        exact ⟨c', d', .inr ⟨hl, hother⟩⟩
                      · cases hother
                  · right
                    rw [if_neg hadd] at hc
                    have hsub : next.code = .sub := by
                      cases hnc : next.code <;> simp_all
                    split at hc
                    · cases hc
                    · rename_i hl
                      cases hc
                      refine ⟨hsub, ?_, h.symm⟩
                      rw [if_neg hl] at hother
                      split at hother
                      · rename_i hl
                        obtain ⟨c', d', hl⟩ := same_var hl
                        exact ⟨c', d', hl, hother⟩
                      · cases hother
                · cases h
              · cases h
    · cases h

theorem fma_rule {cnt : Nat → Nat} {live : List Nat} {vt : Nat → Ty} {et : Nat → Ty → Ty} {mul next op : Op}
    (l1 : Lowered vt et mul) (l2 : Lowered vt et next) (hint : mul.ty.float = false) (h : fma cnt live mul next = .fused op) :
    (∃ D, Rule cnt live vt et [mul, next] [op] D) ∧ (∀ v, useCount [op] v ≤ useCount [mul, next] v) ∧ (op.code = .madd ∨ op.code = .msub) := by
  obtain ⟨t, c, d, a, ac, ad, b, bc, bd, o, oc, od, h1, h2, h3, h4, h5, h6, h7⟩ := fma_spec hint h
  have k1 : Known mul.code := by rw [h1]; intro k hk; cases hk
  obtain ⟨a1, a2, a3, a4, a5, a6, a7⟩ := lowered_known l1 k1
  have hot : outTy et mul = mul.ty := by unfold outTy; rw [h1]
  rw [hot, h2] at a4
  rw [h5] at a1
  rw [h6] at a2
  simp only [Typed] at a1 a2 a4
  have u : ∀ v c d, useIn (some (Operand.var v c d)) = [v] := fun _ _ _ => rfl
  have step1 : ∀ {M : Type} (I : Interp M) (s : State M), step I mul s = put I s (cut mul.ty.width (s.vars a * s.vars b)) (some (.var t c d)) := by
    intro M I s
    rw [step_known k1 s, h1, h2, h5, h6]
    simp [compute, hint, evalOpt, eval]
  -- the three shapes have the same proof
  have main : ∀ code : Code, (code = .madd ∨ code = .msub) →
      op = { next with code := code, first := some (.var a ac ad), second := some (.var b bc bd), addend := some (.var o oc od) } →
      next.code = .add ∨ next.code = .sub → next.ty = mul.ty → vt o = mul.ty →
      (∀ v, (useIn next.first).count v + (useIn next.second).count v = [t].count v + [o].count v) →
      (∀ {M : Type} (I : Interp M) (s1 s : State M) (x : Int), s1.vars t = cut mul.ty.width x → s1.vars o = s.vars o →
        compute I next.code next.ty (evalOpt I s1 next.first) (evalOpt I s1 next.second) (evalOpt I s1 next.addend) =
          (if code = .madd then cut mul.ty.width (s.vars o + x) else cut mul.ty.width (s.vars o - x))) →
      (∃ D, Rule cnt live vt et [mul, next] [op] D) ∧ (∀ v, useCount [op] v ≤ useCount [mul, next] v) ∧ (op.code = .madd ∨ op.code = .msub) := by
    intro code hcode hop hnext hty hvo hcnt hval
    have k2 : Known next.code := by rcases hnext with h | h <;> rw [h] <;> intro k hk <;> cases hk
    obtain ⟨b1, b2, b3, b4, b5, b6, b7⟩ := lowered_known l2 k2
    have hot2 : outTy et next = next.ty := by unfold outTy; rcases hnext with h | h <;> rw [h]
    have hcount : ∀ v, useCount [op] v ≤ useCount [mul, next] v := by
      intro v
      have := hcnt v
      subst hop
      simp only [useCount, count_uses, h5, h6, u]
      omega
    refine ⟨⟨fun v => v = t, ?_, ?_, ?_, ?_⟩, hcount, by rw [hop]; exact hcode⟩
    · rintro v rfl
      have := hcnt v
      refine ⟨h3, h4, ?_⟩
      simp only [List.count_singleton_self] at this
      simp only [useCount, count_uses]
      omega
    · intro v hv
      have := hcount v
      omega
    · intro op' hop'
      rw [List.mem_singleton] at hop'
      subst hop'
      subst hop
      have goal : Typed vt next.ty (some (.var a ac ad)) ∧ Typed vt next.ty (some (.var b bc bd)) ∧ Typed vt next.ty (some (.var o oc od)) ∧
        Typed vt next.ty next.output ∧ (next.ty.float = true → ∀ n, some (Operand.var b bc bd) ≠ some (.imm n)) ∧ next.args = [] ∧ next.defs = [] :=
        ⟨by rw [hty]; exact a1, by rw [hty]; exact a2, by rw [hty]; exact hvo, by rw [← hot2]; exact b4, fun _ n hn => (by cases hn), b6, b7⟩
      rcases hcode with rfl | rfl <;> exact goal
    · intro M I s hI hone
      have hone := hone t rfl
      have hct := hcnt t
      simp only [List.count_singleton_self] at hct
      simp only [useCount, count_uses, h5, h6, u] at hone
      have hto : o ≠ t := by
        rintro rfl
        simp only [List.count_singleton_self] at hct
        omega
      simp only [run]
      rw [step1 I s, step_known k2]
      have ag := var_agree I s (cut mul.ty.width (s.vars a * s.vars b)) t c d
      rw [hval I _ s (s.vars a * s.vars b) (by simp [put]) (ag.vars o hto)]
      subst hop
      have hres : step I { next with code := code, first := some (.var a ac ad), second := some (.var b bc bd), addend := some (.var o oc od) } s =
          put I s (if code = .madd then cut mul.ty.width (s.vars o + s.vars a * s.vars b) else cut mul.ty.width (s.vars o - s.vars a * s.vars b)) next.output := by
        rw [step_known (by rcases hcode with h | h <;> simp only [h] <;> intro k hk <;> cases hk)]
        rcases hcode with rfl | rfl <;> simp [compute, evalOpt, eval, hty]
      rw [hres]
      exact put_agree ag (by rintro v hv rfl; exact not_mem_of_count (by omega) hv) _
  rcases h7 with ⟨hc, ⟨c', d', hx⟩, hop⟩ | ⟨hc, ⟨c', d', hs, hf⟩, hop⟩
  · have k2 : Known next.code := by rw [hc]; intro k hk; cases hk
    obtain ⟨b1, b2, _⟩ := lowered_known l2 k2
    rcases hx with ⟨hf, hs⟩ | ⟨hs, hf⟩
    · rw [hf] at b1
      rw [hs] at b2
      simp only [Typed] at b1 b2
      have hty : next.ty = mul.ty := by rw [← b1, ← a4]
      refine main .madd (.inl rfl) hop (.inl hc) hty (by rw [b2, hty]) (by intro v; rw [hf, hs, u, u]) ?_
      intro M I s1 s x hx ho
      rw [hc, hf, hs, hty]
      simp only [compute, hint, evalOpt, eval, hx, ho, if_true, Bool.false_eq_true, if_false]
      rw [cut_add, Int.add_comm]
    · rw [hf] at b1
      rw [hs] at b2
      simp only [Typed] at b1 b2
      have hty : next.ty = mul.ty := by rw [← b2, ← a4]
      refine main .madd (.inl rfl) hop (.inl hc) hty (by rw [b1, hty]) (by intro v; rw [hf, hs, u, u]; omega) ?_
      intro M I s1 s x hx ho
      rw [hc, hf, hs, hty]
      simp only [compute, hint, evalOpt, eval, hx, ho, if_true, Bool.false_eq_true, if_false]
      rw [cut_add']
  · have k2 : Known next.code := by rw [hc]; intro k hk; cases hk
    obtain ⟨b1, b2, _⟩ := lowered_known l2 k2
    rw [hf] at b1
    rw [hs] at b2
    simp only [Typed] at b1 b2
    have hty : next.ty = mul.ty := by rw [← b2, ← a4]
    refine main .msub (.inr rfl) hop (.inr hc) hty (by rw [b1, hty]) (by intro v; rw [hf, hs, u, u]; omega) ?_
    intro M I s1 s x hx ho
    rw [hc, hf, hs, hty, if_neg (by intro h; cases h)]
    simp only [compute, hint, evalOpt, eval, hx, ho, Bool.false_eq_true, if_false]
    rw [cut_sub']

/-! ### Doubling -/

theorem movTwo_spec {op : Op} {t : Operand} (h : movTwo op = some t) :
    ∃ v c d, t = .var v c d ∧ op.code = .move ∧ op.first = some (.imm 2) ∧ op.output = some (.var v c d) ∧ op.ty.float = false := by
  unfold movTwo at h
  split at h
  · cases h
  · rename_i hc
    split at h
    · rename_i n v c d hf ho
      split at h
      · rename_i hn
        refine ⟨v, c, d, (Option.some.inj h).symm, by simpa using hc, by rw [hf, hn.1], ho, hn.2⟩
      · cases h
    · cases h

theorem mul2_rule {cnt : Nat → Nat} {live : List Nat} {vt : Nat → Ty} {et : Nat → Ty → Ty} {op mul : Op} {ops : List Op}
    (l1 : Lowered vt et op) (l2 : Lowered vt et mul) (h : mul2Pair cnt live op mul = some ops) :
    ∃ D, Rule cnt live vt et [op, mul] ops D := by
  unfold mul2Pair at h
  split at h
  · cases h
  · rename_i t ht
    obtain ⟨v, c, d, rfl, h1, h2, h3, h4⟩ := movTwo_spec ht
    split at h
    · cases h
    · rename_i hmul
      have hmul : mul.code = .mul := by simpa using hmul
      simp only at h
      split at h
      · cases h
      · rename_i o ho
        have hops := (Option.some.inj h).symm
        have k1 : Known op.code := by rw [h1]; intro k hk; cases hk
        have k2 : Known mul.code := by rw [hmul]; intro k hk; cases hk
        obtain ⟨a1, a2, a3, a4, a5, a6, a7⟩ := lowered_known l1 k1
        obtain ⟨b1, b2, b3, b4, b5, b6, b7⟩ := lowered_known l2 k2
        have hot : outTy et op = op.ty := by unfold outTy; rw [h1]
        have hot2 : outTy et mul = mul.ty := by unfold outTy; rw [hmul]
        rw [hot, h3] at a4
        simp only [Typed] at a4
        have u : ∀ v c d, useIn (some (Operand.var v c d)) = [v] := fun _ _ _ => rfl
        -- which operand is the two
        have shape : mul.ty = op.ty ∧ Typed vt mul.ty (some o) ∧ ∃ c' d', (mul.first = some (.var v c' d') ∧ mul.second = some o) ∨
            (mul.second = some (.var v c' d') ∧ mul.first = some o) := by
          split at ho
          · rename_i hs
            obtain ⟨c', d', hs⟩ := same_var hs
            rw [hs] at b1
            simp only [Typed] at b1
            rw [ho] at b2
            exact ⟨by rw [← b1, ← a4], b2, c', d', .inl ⟨hs, ho⟩⟩
          · split at ho
            · rename_i hs
              obtain ⟨c', d', hs⟩ := same_var hs
              rw [hs] at b2
              simp only [Typed] at b2
              rw [ho] at b1
              exact ⟨by rw [← b2, ← a4], b1, c', d', .inr ⟨hs, ho⟩⟩
            · cases ho
        obtain ⟨hty, hto, c', d', hsh⟩ := shape
        have hf : mul.ty.float = false := by rw [hty]; exact h4
        have cnt_mul : ∀ x, (useIn mul.first).count x + (useIn mul.second).count x = [v].count x + (useIn (some o)).count x := by
          intro x
          rcases hsh with ⟨e1, e2⟩ | ⟨e1, e2⟩ <;> rw [e1, e2, u]
          exact Nat.add_comm _ _
        -- the addition
        have lowAdd : Lowered vt et { mul with code := .add, first := some o, second := some o } :=
          ⟨hto, hto, b3, by rw [hot2] at b4; exact b4, (fun hh => absurd (hf.symm.trans hh) (by decide)), b6, b7⟩
        have stepAdd : ∀ {M : Type} (I : Interp M) (s : State M), step I { mul with code := .add, first := some o, second := some o } s =
            put I s (cut mul.ty.width (evalOpt I s (some o) * 2)) mul.output := by
          intro M I s
          rw [step_known (by intro k hk; cases hk)]
          simp only [compute, hf, Bool.false_eq_true, if_false]
          congr 2
          omega
        have step1 : ∀ {M : Type} (I : Interp M) (s : State M), step I op s = put I s (cut mul.ty.width 2) (some (.var v c d)) := by
          intro M I s
          rw [step_known k1, h1, h2, h3, hty]
          rfl
        have stepMul : ∀ {M : Type} (I : Interp M) (s1 : State M), s1.vars v = cut mul.ty.width 2 →
            step I mul s1 = put I s1 (cut mul.ty.width (evalOpt I s1 (some o) * 2)) mul.output := by
          intro M I s1 hv
          rw [step_known k2, hmul]
          simp only [compute, hf, Bool.false_eq_true, if_false]
          rcases hsh with ⟨e1, e2⟩ | ⟨e1, e2⟩
          · rw [e1, e2]
            simp only [evalOpt, eval, hv]
            rw [cut_mul, Int.mul_comm]
          · rw [e1, e2]
            simp only [evalOpt, eval, hv]
            rw [cut_mul']
        have usesAdd : ∀ x, useCount [op, mul] x = 0 → useCount [{ mul with code := .add, first := some o, second := some o }] x = 0 := by
          intro x hx
          have := cnt_mul x
          simp only [useCount, count_uses] at hx ⊢
          omega
        cases hrem : canRemove cnt live v with
        | false =>
          simp only [hrem] at hops
          subst hops
          refine ⟨fun _ => False, fun _ h => h.elim, ?_, ?_, ?_⟩
          · intro x hx
            have h1 := usesAdd x hx
            simp only [useCount] at h1 hx ⊢
            simp only [Bool.not_false, if_true, useCount]
            omega
          · intro op' hop'
            simp only [Bool.not_false, if_true, List.mem_cons, List.not_mem_nil, or_false] at hop'
            rcases hop' with rfl | rfl
            · exact l1
            · exact lowAdd
          · intro M I s hI _
            simp only [Bool.not_false, if_true, run]
            rw [stepAdd, step1, stepMul I _ (by simp [put])]
            exact Agree.refl _
        | true =>
          simp only [hrem] at hops
          subst hops
          obtain ⟨r1, r2⟩ := canRemove_iff.mp hrem
          refine ⟨fun x => x = v, ?_, ?_, ?_, ?_⟩
          · rintro x rfl
            have := cnt_mul x
            simp only [List.count_singleton_self] at this
            refine ⟨r1, r2, ?_⟩
            simp only [useCount, count_uses]
            omega
          · intro x hx
            simpa using usesAdd x hx
          · intro op' hop'
            simp only [Bool.not_true, Bool.false_eq_true, if_false, List.mem_singleton] at hop'
            subst hop'
            exact lowAdd
          · intro M I s hI hone
            have hone := hone v rfl
            have hcm := cnt_mul v
            simp only [List.count_singleton_self] at hcm
            simp only [useCount, count_uses] at hone
            simp only [Bool.not_true, Bool.false_eq_true, if_false, run]
            rw [stepAdd, step1, stepMul I _ (by simp [put])]
            have ag := var_agree I s (cut mul.ty.width 2) v c d
            rw [eval_agree (I := I) ag (o := some o) (by rintro x hx rfl; exact not_mem_of_count (by omega) hx)]
            exact put_agree ag (by rintro x hx rfl; exact not_mem_of_count (by omega) hx) _

theorem mul2Float_none {op : Op} (h : op.code = .mul → op.ty.float = false) : mul2Float op = none := by
  unfold mul2Float
  split
  · rfl
  · rename_i hc
    have hf := h (by simpa using hc)
    have : ∀ o, floatTwo op.ty o = false := by
      intro o
      unfold floatTwo
      split
      · simp [hf]
      · rfl
    rw [this, this]
    rfl

/-! ### The pass -/

/-- Multiplications are of integers. -/
def IntMul (ops : List Op) : Prop := ∀ op ∈ ops, op.code = .mul → op.ty.float = false

/-- No variable is set to the constant two. -/
def NoTwo (ops : List Op) : Prop := ∀ op ∈ ops, op.code = .move → op.first ≠ some (.imm 2)

theorem rule_apply {cnt : Nat → Nat} {live : List Nat} {vt : Nat → Ty} {et : Nat → Ty → Ty} {old new rest out : List Op} {D : Nat → Prop}
    (r : Rule cnt live vt et old new D) {I : Interp M} (hI : Sized I et) (hc : ∀ v, cnt v ≤ 1 → useCount (old ++ rest) v ≤ 1)
    (ih : ∀ (D : Nat → Prop) (s s' : State M), Agree D s s' → (∀ v, D v → v ∉ live ∧ useCount rest v = 0) →
      ∃ D', (∀ v, D' v → v ∉ live) ∧ Agree D' (run I rest s) (run I out s'))
    (E : Nat → Prop) (s s' : State M) (ha : Agree E s s') (hE : ∀ v, E v → v ∉ live ∧ useCount (old ++ rest) v = 0) :
    ∃ D', (∀ v, D' v → v ∉ live) ∧ Agree D' (run I (old ++ rest) s) (run I (new ++ out) s') := by
  rw [run_append, run_append]
  have h1 := r.sim I s hI (by
    intro v hv
    have := hc v (r.dead v hv).2.1
    rw [useCount_append] at this
    omega)
  have h2 : Agree E (run I new s) (run I new s') := run_agree new ha (by
    intro v hv
    have := (hE v hv).2
    rw [useCount_append] at this
    exact r.uses v (by omega))
  refine ih _ _ _ (h1.trans h2) ?_
  rintro v (hv | hv)
  · obtain ⟨d1, d2, d3⟩ := r.dead v hv
    have := hc v d2
    rw [useCount_append] at this
    exact ⟨d1, by omega⟩
  · have := (hE v hv).2
    rw [useCount_append] at this
    exact ⟨(hE v hv).1, by omega⟩

/-- An instruction that is kept. -/
theorem rule_keep {cnt : Nat → Nat} {live : List Nat} {vt : Nat → Ty} {et : Nat → Ty → Ty} {op : Op} (l : Lowered vt et op) :
    Rule cnt live vt et [op] [op] (fun _ => False) :=
  ⟨fun _ h => h.elim, fun _ h => h, fun x hx => by rw [List.mem_singleton] at hx; rw [hx]; exact l, fun _ _ _ _ => Agree.refl _⟩

/-- The instruction behind, with its subtraction turned into an addition or not, has the same effect and uses. -/
theorem fma_next {cnt : Nat → Nat} {live : List Nat} {vt : Nat → Ty} {et : Nat → Ty → Ty} {mul next next' : Op} (l : Lowered vt et next)
    (h : fma cnt live mul next = .no next') :
    uses next' = uses next ∧ Lowered vt et next' ∧ next'.ty = next.ty ∧ (next'.code = next.code ∨ next'.code = .add) ∧ next'.first = next.first ∧
      ∀ {M : Type} (I : Interp M) (s : State M), step I next' s = step I next s := by
  rcases fma_no h with rfl | rfl
  · exact ⟨rfl, l, rfl, .inl rfl, rfl, fun _ _ => rfl⟩
  · exact ⟨negSub_uses _, negSub_lowered l, (negSub_code next).1, (negSub_code next).2.2.2.1, (negSub_code next).2.2.1, fun I s => negSub_step l I s⟩

/-- What a pass keeps. -/
structure Kept (vt : Nat → Ty) (et : Nat → Ty → Ty) (ops out : List Op) : Prop where
  lowered : ∀ op ∈ out, Lowered vt et op
  int : IntMul out
  two : NoTwo ops → NoTwo out ∧ ∀ v, useCount out v ≤ useCount ops v

theorem armPass_ok {cnt : Nat → Nat} {live : List Nat} {vt : Nat → Ty} {et : Nat → Ty → Ty} :
    ∀ (n : Nat) (ops : List Op) (ch : Bool) (out : List Op), armPass cnt live n ops = some (ch, out) →
      (∀ v, cnt v ≤ 1 → useCount ops v ≤ 1) → (∀ op ∈ ops, Lowered vt et op) → IntMul ops →
      Kept vt et ops out ∧ ∀ {M : Type} (I : Interp M), Sized I et → ∀ (D : Nat → Prop) (s s' : State M), Agree D s s' →
        (∀ v, D v → v ∉ live ∧ useCount ops v = 0) → ∃ D', (∀ v, D' v → v ∉ live) ∧ Agree D' (run I ops s) (run I out s') := by
  intro n
  induction n with
  | zero => intro ops ch out h; simp [armPass] at h
  | succ n ih =>
    intro ops ch out h hc hl hi
    match ops with
    | [] =>
      simp only [armPass, Option.some.injEq, Prod.mk.injEq] at h
      rw [← h.2]
      exact ⟨⟨hl, hi, fun h => ⟨h, fun _ => Nat.le_refl _⟩⟩, fun I _ D s s' ha hd => ⟨D, fun v hv => (hd v hv).1, ha⟩⟩
    | [op] =>
      simp only [armPass] at h
      rw [mul2Float_none (hi op (List.mem_cons_self))] at h
      simp only [Option.map_eq_some_iff, Prod.mk.injEq] at h
      obtain ⟨⟨ch', out'⟩, h1, _, rfl⟩ := h
      have : out' = [] := by
        cases n with
        | zero => simp [armPass] at h1
        | succ n => simp [armPass] at h1; exact h1.2
      subst this
      exact ⟨⟨hl, hi, fun h => ⟨h, fun _ => Nat.le_refl _⟩⟩, fun I _ D s s' ha hd =>
        ⟨D, fun v hv => (hd v hv).1, run_agree _ ha fun v hv => (hd v hv).2⟩⟩
    | op1 :: op2 :: rest =>
      have l1 := hl op1 (by simp)
      have l2 := hl op2 (by simp)
      have lr : ∀ op ∈ rest, Lowered vt et op := fun op hop => hl op (by simp [hop])
      have ir : IntMul rest := fun op hop => hi op (by simp [hop])
      have i1 := hi op1 (by simp)
      have i2 := hi op2 (by simp)
      have cr : ∀ v, cnt v ≤ 1 → useCount rest v ≤ 1 := by
        intro v hv
        have := hc v hv
        simp only [useCount] at this
        omega
      simp only [armPass] at h
      -- a rule for both instructions
      have both : ∀ {old new : List Op} {out' : List Op} {D : Nat → Prop} {ch' : Bool}, Rule cnt live vt et old new D →
          (∀ v, useCount old v = useCount [op1, op2] v) → (∀ {M : Type} (I : Interp M) (s : State M), run I old s = run I [op1, op2] s) →
          armPass cnt live n rest = some (ch', out') → out = new ++ out' → (∀ op ∈ new, op.code = .mul → op.ty.float = false) →
          (NoTwo [op1, op2] → NoTwo new ∧ ∀ v, useCount new v ≤ useCount [op1, op2] v) →
          Kept vt et (op1 :: op2 :: rest) out ∧ ∀ {M : Type} (I : Interp M), Sized I et → ∀ (D : Nat → Prop) (s s' : State M), Agree D s s' →
            (∀ v, D v → v ∉ live ∧ useCount (op1 :: op2 :: rest) v = 0) →
            ∃ D', (∀ v, D' v → v ∉ live) ∧ Agree D' (run I (op1 :: op2 :: rest) s) (run I out s') := by
        intro old new out' D ch' r hold hrun hp ho hin htw
        subst ho
        obtain ⟨kept, sim⟩ := ih rest ch' out' hp cr lr ir
        have ecount : ∀ v, useCount (old ++ rest) v = useCount (op1 :: op2 :: rest) v := by
          intro v
          rw [useCount_append, hold]
          simp only [useCount]
          omega
        refine ⟨⟨?_, ?_, ?_⟩, ?_⟩
        · intro op hop
          rcases List.mem_append.mp hop with h | h
          · exact r.lowered op h
          · exact kept.lowered op h
        · intro op hop
          rcases List.mem_append.mp hop with h | h
          · exact hin op h
          · exact kept.int op h
        · intro hn
          obtain ⟨t1, t2⟩ := htw (fun op hop => hn op (by simp at hop ⊢; rcases hop with h | h <;> simp [h]))
          obtain ⟨t3, t4⟩ := kept.two (fun op hop => hn op (by simp [hop]))
          refine ⟨?_, ?_⟩
          · intro op hop
            rcases List.mem_append.mp hop with h | h
            · exact t1 op h
            · exact t3 op h
          · intro v
            have e1 := t2 v
            have e2 := t4 v
            rw [useCount_append, ← ecount v, useCount_append, hold]
            omega
        · intro M I hI E s s' ha hE
          have := rule_apply r hI (rest := rest) (out := out') (fun v hv => by rw [ecount]; exact hc v hv)
            (fun D s s' ha hd => sim I hI D s s' ha hd) E s s' ha (fun v hv => by rw [ecount]; exact hE v hv)
          rw [run_append, hrun, ← run_append] at this
          exact this
      split at h
      · cases h
      · rename_i op hf
        obtain ⟨⟨ch', out'⟩, h1, h2⟩ := Option.map_eq_some_iff.mp h
        have hint : op1.ty.float = false := i1 (by
          unfold fma at hf
          split at hf
          · cases hf
          · rename_i hh; simpa using hh)
        obtain ⟨⟨D, r⟩, hcount, hcode⟩ := fma_rule l1 l2 hint hf
        refine both r (fun _ => rfl) (fun _ _ => rfl) h1 (by simp only [Prod.mk.injEq] at h2; rw [← h2.2]; rfl) ?_ ?_
        · intro o ho hm
          rw [List.mem_singleton] at ho
          subst ho
          rcases hcode with h | h <;> rw [h] at hm <;> cases hm
        · intro _
          refine ⟨?_, hcount⟩
          intro o ho hm
          rw [List.mem_singleton] at ho
          subst ho
          rcases hcode with h | h <;> rw [h] at hm <;> cases hm
      · rename_i op2' hf
        obtain ⟨n1, n2, n3, n4, n5, n6⟩ := fma_next l2 hf
        have hold : ∀ v, useCount [op1, op2'] v = useCount [op1, op2] v := by
          intro v
          simp only [useCount, n1]
        have hrun : ∀ {M : Type} (I : Interp M) (s : State M), run I [op1, op2'] s = run I [op1, op2] s := by
          intro M I s
          simp only [run, n6]
        have i2' : op2'.code = .mul → op2'.ty.float = false := by
          intro hm
          rw [n3]
          refine i2 ?_
          rcases n4 with h | h
          · rw [← h]; exact hm
          · rw [h] at hm; cases hm
        have two2 : NoTwo [op1, op2] → (op2'.code = .move → op2'.first ≠ some (.imm 2)) := by
          intro hn hm
          rw [n5]
          refine hn op2 (by simp) ?_
          rcases n4 with h | h
          · rw [← h]; exact hm
          · rw [h] at hm; cases hm
        split at h
        · rename_i ops hm
          obtain ⟨⟨ch', out'⟩, h1, h2⟩ := Option.map_eq_some_iff.mp h
          obtain ⟨D, r⟩ := mul2_rule l1 n2 hm
          refine both r hold hrun h1 (by simp only [Prod.mk.injEq] at h2; rw [← h2.2]) ?_ ?_
          · intro o ho hc'
            unfold mul2Pair at hm
            split at hm
            · cases hm
            · rename_i t ht
              obtain ⟨v, c, d, rfl, e1, _⟩ := movTwo_spec ht
              split at hm
              · cases hm
              · simp only at hm
                split at hm
                · cases hm
                · have := Option.some.inj hm
                  subst this
                  split at ho
                  · simp only [List.mem_cons, List.not_mem_nil, or_false] at ho
                    rcases ho with rfl | rfl
                    · rw [e1] at hc'; cases hc'
                    · cases hc'
                  · rw [List.mem_singleton] at ho
                    subst ho
                    cases hc'
          · intro hn
            exfalso
            unfold mul2Pair at hm
            split at hm
            · cases hm
            · rename_i t ht
              obtain ⟨v, c, d, rfl, e1, e2, _⟩ := movTwo_spec ht
              exact hn op1 (by simp) e1 e2
        · rw [mul2Float_none i1] at h
          simp only at h
          split at h
          · rename_i op hm
            obtain ⟨⟨ch', out'⟩, h1, h2⟩ := Option.map_eq_some_iff.mp h
            obtain ⟨⟨D, r⟩, hcount, e1, e2, e3⟩ := match1_rule l1 n2 hm
            refine both r hold hrun h1 (by simp only [Prod.mk.injEq] at h2; rw [← h2.2]; rfl) ?_ ?_
            · intro o ho hc'
              rw [List.mem_singleton] at ho
              subst ho
              rw [e2]
              exact i1 (by rw [← e1]; exact hc')
            · intro hn
              refine ⟨?_, fun v => by rw [← hold]; exact hcount v⟩
              intro o ho hc'
              rw [List.mem_singleton] at ho
              subst ho
              rw [e3]
              exact hn op1 (by simp) (by rw [← e1]; exact hc')
          · split at h
            · rename_i op hm
              obtain ⟨⟨ch', out'⟩, h1, h2⟩ := Option.map_eq_some_iff.mp h
              obtain ⟨⟨D, r⟩, hcount, e1, e2, e3⟩ := match2_rule l1 n2 hm
              refine both r hold hrun h1 (by simp only [Prod.mk.injEq] at h2; rw [← h2.2]; rfl) ?_ ?_
              · intro o ho hc'
                rw [List.mem_singleton] at ho
                subst ho
                rw [e2]
                exact i2' (by rw [← e1]; exact hc')
              · intro hn
                refine ⟨?_, fun v => by rw [← hold]; exact hcount v⟩
                intro o ho hc' hf'
                rw [List.mem_singleton] at ho
                subst ho
                exact two2 hn (by rw [← e1]; exact hc') (e3 2 hf')
            · -- the first instruction is kept
              obtain ⟨⟨ch', out'⟩, h1, h2⟩ := Option.map_eq_some_iff.mp h
              have hout : out = [op1] ++ out' := by simp only [Prod.mk.injEq] at h2; rw [← h2.2]; rfl
              subst hout
              have ecount : ∀ v, useCount (op2' :: rest) v = useCount (op2 :: rest) v := by
                intro v
                simp only [useCount, n1]
              obtain ⟨kept, sim⟩ := ih (op2' :: rest) ch' out' h1
                (by
                  intro v hv
                  have := hc v hv
                  rw [ecount]
                  simp only [useCount] at this ⊢
                  omega)
                (by
                  intro op hop
                  rcases List.mem_cons.mp hop with rfl | h
                  · exact n2
                  · exact lr op h)
                (by
                  intro op hop
                  rcases List.mem_cons.mp hop with rfl | h
                  · exact i2'
                  · exact ir op h)
              refine ⟨⟨?_, ?_, ?_⟩, ?_⟩
              · intro op hop
                rcases List.mem_append.mp hop with h | h
                · rw [List.mem_singleton] at h; subst h; exact l1
                · exact kept.lowered op h
              · intro op hop
                rcases List.mem_append.mp hop with h | h
                · rw [List.mem_singleton] at h; subst h; exact i1
                · exact kept.int op h
              · intro hn
                have hn2 : NoTwo [op1, op2] := fun op hop => hn op (by simp at hop ⊢; rcases hop with h | h <;> simp [h])
                obtain ⟨t3, t4⟩ := kept.two (by
                  intro op hop
                  rcases List.mem_cons.mp hop with rfl | h
                  · exact two2 hn2
                  · exact hn op (by simp [h]))
                refine ⟨?_, ?_⟩
                · intro op hop
                  rcases List.mem_append.mp hop with h | h
                  · rw [List.mem_singleton] at h; subst h; exact hn op (by simp)
                  · exact t3 op h
                · intro v
                  have e := t4 v
                  rw [ecount] at e
                  simp only [List.cons_append, List.nil_append, useCount] at e ⊢
                  omega
              · intro M I hI E s s' ha hE
                have := rule_apply (rule_keep (cnt := cnt) (live := live) l1) hI (rest := op2' :: rest) (out := out')
                  (by
                    intro v hv
                    have := hc v hv
                    have e := ecount v
                    simp only [List.cons_append, List.nil_append, useCount] at this e ⊢
                    omega)
                  (fun D s s' ha hd => sim I hI D s s' ha hd) E s s' ha
                  (by
                    intro v hv
                    obtain ⟨q1, q2⟩ := hE v hv
                    have e := ecount v
                    simp only [List.cons_append, List.nil_append, useCount] at q2 e ⊢
                    exact ⟨q1, by omega⟩)
                have hrun2 : run I ([op1] ++ op2' :: rest) s = run I (op1 :: op2 :: rest) s := by
                  simp only [List.cons_append, List.nil_append, run, n6]
                rw [hrun2] at this
                exact this

theorem armIter_ok {cnt : Nat → Nat} {live : List Nat} {vt : Nat → Ty} {et : Nat → Ty → Ty} :
    ∀ (n : Nat) (ops out : List Op), armIter cnt live n ops = some out → (∀ v, useCount ops v ≤ cnt v) → (∀ op ∈ ops, Lowered vt et op) →
      IntMul ops → NoTwo ops → ∀ {M : Type} (I : Interp M), Sized I et → ∀ s : State M, Same live (run I ops s) (run I out s) := by
  intro n
  induction n with
  | zero =>
    intro ops out h _ _ _ _ M I _ s
    simp only [armIter, Option.some.injEq] at h
    subst h
    exact ⟨rfl, rfl, fun _ _ => rfl⟩
  | succ n ih =>
    intro ops out h hc hl hi ht M I hI s
    simp only [armIter] at h
    split at h
    · cases h
    · rename_i ch ops' hp
      obtain ⟨kept, sim⟩ := armPass_ok _ _ _ _ hp (fun v hv => Nat.le_trans (hc v) hv) hl hi
      obtain ⟨D', d1, d2⟩ := sim I hI (fun _ => False) s s (Agree.refl s) (fun _ h => h.elim)
      have first : Same live (run I ops s) (run I ops' s) := ⟨d2.regs, d2.mem, fun v hv => d2.vars v fun h => d1 v h hv⟩
      split at h
      · obtain ⟨k1, k2⟩ := kept.two ht
        have second := ih ops' out h (fun v => Nat.le_trans (k2 v) (hc v)) kept.lowered kept.int k1 I hI s
        exact ⟨first.1.trans second.1, first.2.1.trans second.2.1, fun v hv => (first.2.2 v hv).trans (second.2.2 v hv)⟩
      · have := Option.some.inj h
        subst this
        exact first

end Nature.Peephole
