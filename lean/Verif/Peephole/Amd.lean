import Verif.Peephole.ArmPass
/-!
# The amd64 rule and pass
-/
namespace Nature.Peephole
variable {M : Type}

theorem same_some {o : Option Operand} {r : Operand} (h : same o (some r) = true) : ∃ x, o = some x := by
  cases o with
  | none => cases h
  | some x => exact ⟨x, rfl⟩

theorem lea_value (w : Nat) (x scale d : Int) (hs : validScale scale = true) :
    cut w ((if scale = 2 then x else 0) + x * (if scale = 2 then 1 else scale) + d) = cut w (cut w (x * scale) + d) := by
  rw [cut_add]
  by_cases h : scale = 2
  · subst h
    simp only [if_true]
    congr 1
    omega
  · simp only [h, if_false]
    congr 1
    omega

/-- What `leaOf` makes. -/
theorem leaOf_spec {cnt : Nat → Nat} {live : List Nat} {mul add op : Op} {index result : Operand} {scale : Int}
    (h : leaOf cnt live mul index scale result add = some op) :
    ∃ d v c e, add.second = some (.imm d) ∧ add.output = some (.var v c e) ∧ add.ty.float = false ∧
      ((∃ c' e', result = .var v c' e') ∨ canRemoveOperand cnt live result = true) ∧ disp32 (if add.code = .sub then -d else d) = (if add.code = .sub then -d else d) ∧
      op = ⟨if scale = 2 then .lea true 1 (if add.code = .sub then -d else d) else .lea false scale (if add.code = .sub then -d else d),
        mul.ty, some index, none, none, some (.var v c e), [], []⟩ := by
  unfold leaOf at h
  split at h
  · rename_i d v c e hs ho
    split at h
    · cases h
    · rename_i hres
      split at h
      · cases h
      · rename_i hf
        simp only at h
        generalize hdisp : (if add.code = Code.sub then -d else d) = disp at h
        split at h
        · cases h
        · rename_i hrange
          refine ⟨d, v, c, e, hs, ho, by simpa using hf, ?_, by rw [hdisp, disp32]; omega, by rw [hdisp]; exact (Option.some.inj h).symm⟩
          by_cases hsame : same (some result) (some (.var v c e)) = true
          · obtain ⟨c', e', hr⟩ := same_var hsame
            exact .inl ⟨c', e', Option.some.inj hr⟩
          · right
            cases hcr : canRemoveOperand cnt live result with
            | true => rfl
            | false => simp [hcr, hsame] at hres
  · cases h

/-- The first operand of additions and subtractions is a variable (`amd64_lower_ternary`, lower/amd64.c). -/
def VarAdd (ops : List Op) : Prop := ∀ op ∈ ops, (op.code = .add ∨ op.code = .sub) → ∃ v c d, op.first = some (.var v c d)

theorem lea_ty {vt : Nat → Ty} {et : Nat → Ty → Ty} {op : Op} (l : Lowered vt et op) (h : op.code = .add ∨ op.code = .sub ∨ op.code = .mul ∨ op.code = .move) :
    Typed vt op.ty op.first ∧ Typed vt op.ty op.second ∧ Typed vt op.ty op.output ∧ op.args = [] := by
  have k : Known op.code := by rcases h with h | h | h | h <;> rw [h] <;> intro k hk <;> cases hk
  have hot : outTy et op = op.ty := by unfold outTy; rcases h with h | h | h | h <;> rw [h]
  obtain ⟨l1, l2, l3, l4, l5, l6, l7⟩ := lowered_known l k
  rw [hot] at l4
  exact ⟨l1, l2, l4, l6⟩

/-- The end of the sequence: an addition or subtraction of a displacement to the product, held by a variable. -/
theorem add_step {vt : Nat → Ty} {et : Nat → Ty → Ty} {add : Op} (hc : add.code = .add ∨ add.code = .sub) (hf : add.ty.float = false)
    {d : Int} (hs : add.second = some (.imm d)) (I : Interp M) (s : State M) :
    step I add s = put I s (cut add.ty.width (evalOpt I s add.first + (if add.code = .sub then -d else d))) add.output := by
  rw [step_known (by rcases hc with h | h <;> rw [h] <;> intro k hk <;> cases hk), hs]
  rcases hc with h | h <;> rw [h] <;> simp only [compute, hf, Bool.false_eq_true, if_false]
  · rw [if_neg (by intro h; cases h)]; rfl
  · rw [if_pos trivial, Int.sub_eq_add_neg]; rfl

theorem lea_step (I : Interp M) (s : State M) (a : Nat) (ac ad : Bool) (scale disp : Int) (ty : Ty) (out : Option Operand) (hs : validScale scale = true) (hd : disp32 disp = disp) :
    step I ⟨if scale = 2 then .lea true 1 disp else .lea false scale disp, ty, some (.var a ac ad), none, none, out, [], []⟩ s =
      put I s (cut ty.width (cut ty.width (s.vars a * scale) + disp)) out := by
  rw [step_known (by split <;> intro k hk <;> cases hk), ← lea_value _ _ _ _ hs]
  by_cases h : scale = 2
  · subst h
    simp [compute, evalOpt, eval, hd]
  · simp [h, compute, evalOpt, eval, hd]

/-- A block with the fused sequence at its front. -/
theorem lea_rule {cnt : Nat → Nat} {live : List Nat} {vt : Nat → Ty} {et : Nat → Ty → Ty} {ops rest : List Op} {op : Op}
    (hl : ∀ op ∈ ops, Lowered vt et op) (hr : VarAdd ops) (h : lea cnt live ops = some (op, rest)) :
    ∃ old D, ops = old ++ rest ∧ Rule cnt live vt et old [op] D ∧ (∀ v, useCount [op] v ≤ useCount old v) ∧ (∃ t s d, op.code = .lea t s d) ∧ old ≠ [] := by
  unfold lea at h
  split at h
  · rename_i mul next rest0
    have lm := hl mul (by simp)
    have ln := hl next (by simp)
    split at h
    · cases h
    · rename_i hmul
      have hmul : mul.code = .mul := by simpa using hmul
      split at h
      · rename_i scale a ac ad t tc td hs hf ho
        split at h
        · cases h
        · rename_i hflt
          have hflt : mul.ty.float = false := by simpa using hflt
          split at h
          · cases h
          · rename_i hvs
            have hvs : validScale scale = true := by simpa using hvs
            obtain ⟨m1, m2, m3, m4⟩ := lea_ty lm (.inr (.inr (.inl hmul)))
            rw [hf] at m1
            rw [ho] at m3
            simp only [Typed] at m1 m3
            have kmul : Known mul.code := by rw [hmul]; intro k hk; cases hk
            have smul : ∀ {M : Type} (I : Interp M) (s : State M), step I mul s = put I s (cut mul.ty.width (s.vars a * scale)) (some (.var t tc td)) := by
              intro M I s
              rw [step_known kmul, hmul, hs, hf, ho]
              simp [compute, hflt, evalOpt, eval]
            have u : ∀ v c d, useIn (some (Operand.var v c d)) = [v] := fun _ _ _ => rfl
            simp only at h
            split at h
            · rename_i hnc
              split at h
              · rename_i hsame
                obtain ⟨c', d', hnf⟩ := same_var hsame
                obtain ⟨op', hop, hpair⟩ := Option.map_eq_some_iff.mp h
                simp only [Prod.mk.injEq] at hpair
                obtain ⟨rfl, rfl⟩ := hpair
                obtain ⟨d, v, c, e, e1, e2, e3, e4, e6, rfl⟩ := leaOf_spec hop
                obtain ⟨n1, n2, n3, n4⟩ := lea_ty ln (by rcases hnc with h | h <;> simp [h])
                rw [hnf] at n1
                rw [e2] at n3
                simp only [Typed] at n1 n3
                have hty : next.ty = mul.ty := by rw [← n1, ← m3]
                have hcount : ∀ x, useCount [(⟨if scale = 2 then .lea true 1 (if next.code = .sub then -d else d) else .lea false scale (if next.code = .sub then -d else d),
                    mul.ty, some (.var a ac ad), none, none, some (.var v c e), [], []⟩ : Op)] x ≤ useCount [mul, next] x := by
                  intro x
                  simp only [useCount, count_uses, hf, u]
                  simp [useOut, useIn]
                  omega
                refine ⟨[mul, next], fun x => x = t ∧ t ≠ v, rfl, ⟨?_, ?_, ?_, ?_⟩, hcount, ?_, by simp⟩
                · rintro x ⟨rfl, hxv⟩
                  have hrem : canRemove cnt live x = true := by
                    rcases e4 with ⟨c', e', h⟩ | h
                    · cases h
                      exact absurd rfl hxv
                    · exact h
                  obtain ⟨r1, r2⟩ := canRemove_iff.mp hrem
                  refine ⟨r1, r2, ?_⟩
                  simp only [useCount, count_uses, hnf, u, List.count_singleton_self]
                  omega
                · intro x hx
                  have := hcount x
                  omega
                · intro o' ho'
                  rw [List.mem_singleton] at ho'
                  subst ho'
                  have goal : vt a = mul.ty ∧ True ∧ True ∧ vt v = mul.ty ∧ (mul.ty.float = true → ∀ n, (none : Option Operand) ≠ some (.imm n)) ∧
                      ([] : List Nat) = [] ∧ ([] : List Nat) = [] :=
                    ⟨m1, trivial, trivial, by rw [n3, hty], (fun _ n hn => by cases hn), rfl, rfl⟩
                  by_cases h2 : scale = 2
                  · simp only [h2, if_true]; exact goal
                  · simp only [h2, if_false]; exact goal
                · intro M I s hI _
                  simp only [run]
                  rw [lea_step I s a ac ad _ _ _ _ hvs e6, smul, add_step (vt := vt) (et := et) hnc e3 e1, hnf, eval_put, hty, e2]
                  refine ⟨rfl, rfl, ?_⟩
                  intro x hx
                  simp only [put]
                  split
                  · rfl
                  · rename_i hxv
                    split
                    · rename_i hxt
                      exact absurd ⟨hxt, fun h => hxv (hxt.trans h)⟩ hx
                    · rfl
                · by_cases h2 : scale = 2
                  · simp only [h2, if_true]; exact ⟨_, _, _, rfl⟩
                  · simp only [h2, if_false]; exact ⟨_, _, _, rfl⟩
              · cases h
            · split at h
              · rename_i hmov
                split at h
                · rename_i hsame
                  obtain ⟨c', d', hnf⟩ := same_var hsame
                  split at h
                  · cases h
                  · rename_i hrem
                    have hrem := canRemove_iff.mp (by simpa using hrem)
                    split at h
                    · rename_i third rest1 res hno
                      split at h
                      · rename_i hthird
                        obtain ⟨htc, htf⟩ := hthird
                        obtain ⟨op', hop, hpair⟩ := Option.map_eq_some_iff.mp h
                        simp only [Prod.mk.injEq] at hpair
                        obtain ⟨rfl, rfl⟩ := hpair
                        obtain ⟨d, v, c, e, e1, e2, e3, e4, e6, rfl⟩ := leaOf_spec hop
                        have lt := hl third (by simp)
                        obtain ⟨n1, n2, n3, n4⟩ := lea_ty ln (by simp [hmov])
                        obtain ⟨q1, q2, q3, q4⟩ := lea_ty lt (by rcases htc with h | h <;> simp [h])
                        obtain ⟨r, rc, rd, htv⟩ := hr third (by simp) htc
                        have hres : ∃ rc' rd', res = .var r rc' rd' := by
                          rw [htv] at htf
                          cases res with
                          | var r' rc' rd' =>
                            simp only [same, decide_eq_true_eq] at htf
                            subst htf
                            exact ⟨rc', rd', rfl⟩
                          | _ => cases htf
                        obtain ⟨rc', rd', rfl⟩ := hres
                        rw [hnf] at n1
                        rw [hno] at n3
                        rw [e2] at q3
                        rw [htv] at q1
                        simp only [Typed] at n1 n3 q1 q3
                        have hty : next.ty = mul.ty := by rw [← n1, ← m3]
                        have hty2 : third.ty = mul.ty := by rw [← q1, n3, hty]
                        have hcount : ∀ x, useCount [(⟨if scale = 2 then .lea true 1 (if third.code = .sub then -d else d) else .lea false scale (if third.code = .sub then -d else d),
                            mul.ty, some (.var a ac ad), none, none, some (.var v c e), [], []⟩ : Op)] x ≤ useCount [mul, next, third] x := by
                          intro x
                          simp only [useCount, count_uses, hf, u]
                          simp [useOut, useIn]
                          omega
                        have kmov : Known next.code := by rw [hmov]; intro k hk; cases hk
                        refine ⟨[mul, next, third], fun x => (x = t ∧ t ≠ v) ∨ (x = r ∧ r ≠ v), rfl, ⟨?_, ?_, ?_, ?_⟩, hcount, ?_, by simp⟩
                        · rintro x (⟨rfl, hxv⟩ | ⟨rfl, hxv⟩)
                          · refine ⟨hrem.1, hrem.2, ?_⟩
                            simp only [useCount, count_uses, hnf, u, List.count_singleton_self]
                            omega
                          · have hrem' : canRemove cnt live x = true := by
                              rcases e4 with ⟨c', e', h⟩ | h
                              · cases h
                                exact absurd rfl hxv
                              · exact h
                            obtain ⟨r1, r2⟩ := canRemove_iff.mp hrem'
                            refine ⟨r1, r2, ?_⟩
                            simp only [useCount, count_uses, htv, u, List.count_singleton_self]
                            omega
                        · intro x hx
                          have := hcount x
                          omega
                        · intro o' ho'
                          rw [List.mem_singleton] at ho'
                          subst ho'
                          have goal : vt a = mul.ty ∧ True ∧ True ∧ vt v = mul.ty ∧ (mul.ty.float = true → ∀ n, (none : Option Operand) ≠ some (.imm n)) ∧
                              ([] : List Nat) = [] ∧ ([] : List Nat) = [] :=
                            ⟨m1, trivial, trivial, by rw [q3, hty2], (fun _ n hn => by cases hn), rfl, rfl⟩
                          by_cases h2 : scale = 2
                          · simp only [h2, if_true]; exact goal
                          · simp only [h2, if_false]; exact goal
                        · intro M I s hI _
                          simp only [run]
                          have smov : ∀ s1 : State M, step I next s1 = put I s1 (cut mul.ty.width (s1.vars t)) (some (.var r rc' rd')) := by
                            intro s1
                            rw [step_known kmov, hmov, hnf, hno, hty]
                            rfl
                          rw [lea_step I s a ac ad _ _ _ _ hvs e6, smul, smov, add_step (vt := vt) (et := et) htc e3 e1, htv, eval_put, hty2, e2]
                          have hv : (put I s (cut mul.ty.width (s.vars a * scale)) (some (.var t tc td))).vars t = cut mul.ty.width (s.vars a * scale) := by simp [put]
                          rw [hv, cut_cut]
                          refine ⟨rfl, rfl, ?_⟩
                          intro x hx
                          simp only [put]
                          split
                          · rfl
                          · rename_i hxv
                            split
                            · rename_i hxr
                              exact absurd (.inr ⟨hxr, fun h => hxv (hxr.trans h)⟩) hx
                            · split
                              · rename_i hxt
                                exact absurd (.inl ⟨hxt, fun h => hxv (hxt.trans h)⟩) hx
                              · rfl
                        · by_cases h2 : scale = 2
                          · simp only [h2, if_true]; exact ⟨_, _, _, rfl⟩
                          · simp only [h2, if_false]; exact ⟨_, _, _, rfl⟩
                      · cases h
                    · cases h
                · cases h
              · cases h
      · cases h
  · cases h

theorem amdPass_ok {cnt : Nat → Nat} {live : List Nat} {vt : Nat → Ty} {et : Nat → Ty → Ty} :
    ∀ (n : Nat) (ops : List Op), (∀ v, cnt v ≤ 1 → useCount ops v ≤ 1) → (∀ op ∈ ops, Lowered vt et op) → VarAdd ops →
      ((∀ op ∈ (amdPass cnt live n ops).2, Lowered vt et op) ∧ VarAdd (amdPass cnt live n ops).2 ∧
        ∀ v, useCount (amdPass cnt live n ops).2 v ≤ useCount ops v) ∧
      ∀ {M : Type} (I : Interp M), Sized I et → ∀ (D : Nat → Prop) (s s' : State M), Agree D s s' →
        (∀ v, D v → v ∉ live ∧ useCount ops v = 0) →
        ∃ D', (∀ v, D' v → v ∉ live) ∧ Agree D' (run I ops s) (run I (amdPass cnt live n ops).2 s') := by
  intro n
  induction n with
  | zero =>
    intro ops hc hl hv
    exact ⟨⟨hl, hv, fun _ => Nat.le_refl _⟩, fun I _ D s s' ha hd => ⟨D, fun v hv => (hd v hv).1, run_agree _ ha fun v hv => (hd v hv).2⟩⟩
  | succ n ih =>
    intro ops hc hl hv
    cases ops with
    | nil => exact ⟨⟨hl, hv, fun _ => Nat.le_refl _⟩, fun I _ D s s' ha hd => ⟨D, fun v hv => (hd v hv).1, ha⟩⟩
    | cons op ops =>
      simp only [amdPass]
      cases hm : lea cnt live (op :: ops) with
      | some p =>
        obtain ⟨o, rest⟩ := p
        obtain ⟨old, D0, e1, r, hcount, ⟨lt, ls, ld, hcode⟩, _⟩ := lea_rule hl hv hm
        rw [e1] at hc hl hv
        have cr : ∀ v, cnt v ≤ 1 → useCount rest v ≤ 1 := by
          intro v h
          have := hc v h
          rw [useCount_append] at this
          omega
        obtain ⟨⟨k1, k2, k3⟩, sim⟩ := ih rest cr (fun x hx => hl x (by simp [hx])) (fun x hx => hv x (by simp [hx]))
        simp only
        rw [e1]
        refine ⟨⟨?_, ?_, ?_⟩, ?_⟩
        · intro x hx
          rcases List.mem_cons.mp hx with rfl | hx
          · exact r.lowered _ (by simp)
          · exact k1 x hx
        · intro x hx hxc
          rcases List.mem_cons.mp hx with rfl | hx
          · rw [hcode] at hxc
            rcases hxc with h | h <;> cases h
          · exact k2 x hx hxc
        · intro v
          have h1 := hcount v
          have h2 := k3 v
          rw [useCount_append]
          simp only [useCount] at h1 ⊢
          omega
        · intro M I hI E s s' ha hE
          exact rule_apply r hI hc (fun D s s' ha hd => sim I hI D s s' ha hd) E s s' ha hE
      | none =>
        simp only
        have cr : ∀ v, cnt v ≤ 1 → useCount ops v ≤ 1 := by
          intro v h
          have := hc v h
          simp only [useCount] at this
          omega
        obtain ⟨⟨k1, k2, k3⟩, sim⟩ := ih ops cr (fun x hx => hl x (by simp [hx])) (fun x hx => hv x (by simp [hx]))
        refine ⟨⟨?_, ?_, ?_⟩, ?_⟩
        · intro x hx
          rcases List.mem_cons.mp hx with rfl | hx
          · exact hl _ (by simp)
          · exact k1 x hx
        · intro x hx
          rcases List.mem_cons.mp hx with rfl | hx
          · exact hv _ (by simp)
          · exact k2 x hx
        · intro v
          have h2 := k3 v
          simp only [useCount]
          omega
        · intro M I hI E s s' ha hE
          exact rule_apply (old := [op]) (new := [op]) (rule_keep (cnt := cnt) (live := live) (hl op (by simp))) hI hc
            (fun D s s' ha hd => sim I hI D s s' ha hd) E s s' ha hE

theorem amdIter_ok {cnt : Nat → Nat} {live : List Nat} {vt : Nat → Ty} {et : Nat → Ty → Ty} :
    ∀ (n : Nat) (ops : List Op), (∀ v, useCount ops v ≤ cnt v) → (∀ op ∈ ops, Lowered vt et op) → VarAdd ops →
      ∀ {M : Type} (I : Interp M), Sized I et → ∀ s : State M, Same live (run I ops s) (run I (amdIter cnt live n ops) s) := by
  intro n
  induction n with
  | zero => intro ops _ _ _ M I _ s; exact ⟨rfl, rfl, fun _ _ => rfl⟩
  | succ n ih =>
    intro ops hc hl hv M I hI s
    obtain ⟨⟨k1, k2, k3⟩, sim⟩ := amdPass_ok (cnt := cnt) (live := live) (ops.length + 1) ops (fun v h => Nat.le_trans (hc v) h) hl hv
    obtain ⟨D', d1, d2⟩ := sim I hI (fun _ => False) s s (Agree.refl s) (fun _ h => h.elim)
    have first : Same live (run I ops s) (run I (amdPass cnt live (ops.length + 1) ops).2 s) :=
      ⟨d2.regs, d2.mem, fun v hv => d2.vars v fun h => d1 v h hv⟩
    simp only [amdIter]
    split
    · have second := ih _ (fun v => Nat.le_trans (k3 v) (hc v)) k1 k2 I hI s
      exact ⟨first.1.trans second.1, first.2.1.trans second.2.1, fun v hv => (first.2.2 v hv).trans (second.2.2 v hv)⟩
    · exact first

end Nature.Peephole
