import Verif.Linear.SimE

/-! # Expressions: the simulation, all cases -/
namespace Nature.Linear

open Spec

variable {X : Ext} {P : List Instr} {F : Nat} {pl : Nat → Bool} {A : List Nat} {n : Nat}

theorem simE (hU : Uniq P) (hpl : ∀ f, pl f = true → Insensitive X f)
    (ih : ∀ m, m ≤ n → Sim X F P pl A m) :
    ∀ Γ tgt e c r k c' ct rt p, linE (n + 1) Γ tgt e c = some (r, k, c') →
    CtxOk pl A Γ c.tmp ct rt → TgtOk tgt c.tmp → goodE pl A rt e = true →
    (p = none ∨ safeE pl e = true) → Fresh (idsE e) c →
    ROk tgt e c c' r ∧ ∀ post, (k ++ post) <:+ P →
    ∀ (σ : St X) l, Rel p σ l →
    Arr F F P (.run (k ++ post) l) c.tmp tgt.toList l p Γ (evalE X F e ct σ) (QE r post) := by
  have I := ih n (Nat.le_refl n)
  have ST := stat (pl := pl) (A := A) n
  intro Γ tgt e c r k c' ct rt p h hΓ hT hg hp hF
  cases e with
  | lit v =>
    simp only [linE] at h
    obtain ⟨rfl, h1⟩ := superMove_some h
    refine ⟨⟨fun t ht => ?_, fun o ho => ?_⟩, fun post hs σ l hR => ?_⟩
    · rcases h1 with ⟨rfl, rfl, rfl⟩ | ⟨t, rfl, rfl, rfl⟩
      · cases ht
      · cases ht; rfl
    · rcases h1 with ⟨rfl, rfl, rfl⟩ | ⟨t, rfl, rfl, rfl⟩
      · cases ho; exact .imm
      · cases ho; exact .tgt rfl
    · simp only [evalE]
      exact superMove_sim h1 hT hR (Fr.refl _ _ _) rfl
  | var x =>
    cases x with
    | tmp j => simp [goodE] at hg
    | src x =>
      simp only [linE] at h
      obtain ⟨rfl, h1⟩ := superMove_some h
      refine ⟨⟨fun t ht => ?_, fun o ho => ?_⟩, fun post hs σ l hR => ?_⟩
      · rcases h1 with ⟨rfl, rfl, rfl⟩ | ⟨t, rfl, rfl, rfl⟩
        · cases ht
        · cases ht; rfl
      · rcases h1 with ⟨rfl, rfl, rfl⟩ | ⟨t, rfl, rfl, rfl⟩
        · cases ho; exact .src rfl
        · cases ho; exact .tgt rfl
      · simp only [evalE]
        exact superMove_sim h1 hT hR (Fr.refl _ _ _) (hR.vars x)
  | arith o a b =>
    simp only [linE] at h
    simp only [goodE, Bool.and_eq_true] at hg
    simp only [idsE] at hF
    obtain ⟨t, c1, T, h1⟩ := bind_target hT h
    obtain ⟨_, k1, c2, k2, ha, h3, rfl⟩ := bind_some.1 h1
    obtain ⟨oa, rfl, h4⟩ := bind_need.1 h3
    obtain ⟨_, k4, c3, k5, hb, h6, rfl⟩ := bind_some.1 h4
    obtain ⟨ob, rfl, h7⟩ := bind_need.1 h6
    obtain ⟨k6, h8, rfl⟩ := bind_emit.1 h7
    obtain ⟨rfl, rfl, rfl⟩ := pure_some.1 h8
    have S1 := ST.e Γ none rt a hΓ.sc hg.1.1 _ _ _ _ ha
    have S2 := ST.e Γ none rt b hΓ.sc hg.1.2 _ _ _ _ hb
    refine ⟨T.shapeOf (Nat.le_trans S1.2.1 S2.2.1), fun post hs σ l hR => ?_⟩
    norm
    obtain ⟨j, rfl, hj⟩ := T.name
    simp only [evalE]
    refine operands I ha hb (hΓ.mono T.le) hg.1.1 hg.1.2 hg.2
      (hp.imp id fun h => by simp only [safeE, Bool.and_eq_true] at h; exact h.1)
      (hp.imp id fun h => by simp only [safeE, Bool.and_eq_true] at h; exact h.2)
      (hF.same T.seen) hs hR T.le (Fr.refl _ _ _) ?_
    rintro v w σ2 l2 hR2 hf2 hv hw
    refine Arr.step ?_
    simp only [step, hv, hw]
    refine Arr.ret (hR2.setT j _) (hf2.set T.own _) ⟨rfl, fun o ho => ?_⟩
    cases ho
    exact set_same _ _ _
  | cmp kd cm a b =>
    simp only [linE] at h
    simp only [goodE, Bool.and_eq_true] at hg
    simp only [idsE] at hF
    obtain ⟨t, c1, T, h1⟩ := bind_target hT h
    obtain ⟨_, k1, c2, k2, ha, h3, rfl⟩ := bind_some.1 h1
    obtain ⟨oa, rfl, h4⟩ := bind_need.1 h3
    obtain ⟨_, k4, c3, k5, hb, h6, rfl⟩ := bind_some.1 h4
    obtain ⟨ob, rfl, h7⟩ := bind_need.1 h6
    obtain ⟨k6, h8, rfl⟩ := bind_emit.1 h7
    obtain ⟨rfl, rfl, rfl⟩ := pure_some.1 h8
    have S1 := ST.e Γ none rt a hΓ.sc hg.1.1 _ _ _ _ ha
    have S2 := ST.e Γ none rt b hΓ.sc hg.1.2 _ _ _ _ hb
    refine ⟨T.shapeOf (Nat.le_trans S1.2.1 S2.2.1), fun post hs σ l hR => ?_⟩
    norm
    obtain ⟨j, rfl, hj⟩ := T.name
    simp only [evalE]
    refine operands I ha hb (hΓ.mono T.le) hg.1.1 hg.1.2 hg.2
      (hp.imp id fun h => by simp only [safeE, Bool.and_eq_true] at h; exact h.1)
      (hp.imp id fun h => by simp only [safeE, Bool.and_eq_true] at h; exact h.2)
      (hF.same T.seen) hs hR T.le (Fr.refl _ _ _) ?_
    rintro v w σ2 l2 hR2 hf2 hv hw
    refine Arr.step ?_
    simp only [step, hv, hw]
    refine Arr.ret (hR2.setT j _) (hf2.set T.own _) ⟨rfl, fun o ho => ?_⟩
    cases ho
    exact set_same _ _ _
  | and a b =>
    simp only [linE] at h
    simp only [goodE, Bool.and_eq_true] at hg
    simp only [idsE] at hF
    simp only [evalE]
    exact simLogic hU I true h hΓ hT hg.1 hg.2
      (hp.imp id fun h => by simp only [safeE, Bool.and_eq_true] at h; exact h.1)
      (hp.imp id fun h => by simp only [safeE, Bool.and_eq_true] at h; exact h.2) hF _
  | or a b =>
    simp only [linE] at h
    simp only [goodE, Bool.and_eq_true] at hg
    simp only [idsE] at hF
    simp only [evalE]
    obtain ⟨s1, s2⟩ := simLogic hU I false h hΓ hT hg.1 hg.2
      (hp.imp id fun h => by simp only [safeE, Bool.and_eq_true] at h; exact h.1)
      (hp.imp id fun h => by simp only [safeE, Bool.and_eq_true] at h; exact h.2) hF (.or a b)
    refine ⟨s1, fun post hs σ l hR => ?_⟩
    have := s2 post hs σ l hR
    have e : (fun t σ1 => if t = false then
          (evalE X F b ct σ1).test fun u σ2 => Res.ok (Val.b u) σ2
          else .ok (Val.b (!false)) σ1) =
        (fun t σ1 => if t = true then Res.ok (Val.b true) σ1
          else (evalE X F b ct σ1).test fun u σ2 => .ok (Val.b u) σ2) := by
      funext t σ1
      cases t <;> simp
    rw [e] at this
    exact this
  | tern q a b =>
    simp only [linE] at h
    simp only [goodE, Bool.and_eq_true] at hg
    simp only [idsE] at hF
    obtain ⟨t, c1, T, h1⟩ := bind_target hT h
    have h2 := bind_freshL.1 (bind_freshL.1 h1)
    obtain ⟨_, k1, c2, k2, hq, h3, rfl⟩ := bind_some.1 h2
    obtain ⟨oq, rfl, h4⟩ := bind_need.1 h3
    obtain ⟨k3, h5, rfl⟩ := bind_emit.1 h4
    obtain ⟨_, k4, c3, k5, ha, h6, rfl⟩ := bind_some.1 h5
    obtain ⟨oa, rfl, h7⟩ := bind_need.1 h6
    obtain ⟨k6, h8, rfl⟩ := bind_emit.1 h7
    obtain ⟨_, k7, c4, k8, hb, h9, rfl⟩ := bind_some.1 h8
    obtain ⟨ob, rfl, h10⟩ := bind_need.1 h9
    obtain ⟨k9, h11, rfl⟩ := bind_emit.1 h10
    obtain ⟨rfl, rfl, rfl⟩ := pure_some.1 h11
    have S1 := ST.e Γ none rt q hΓ.sc hg.1.1 _ _ _ _ hq
    have S2 := ST.e Γ none rt a hΓ.sc hg.1.2 _ _ _ _ ha
    have S3 := ST.e Γ none rt b hΓ.sc hg.2 _ _ _ _ hb
    have L1 := S1.2.1
    have L2 := S2.2.1
    have L3 := S3.2.1
    have L0 := T.le
    simp only at L1 L2 L3
    refine ⟨T.shapeOf (by omega), fun post hs σ l hR => ?_⟩
    norm
    obtain ⟨j, rfl, hj⟩ := T.name
    simp only [evalE]
    have hF1 : Fresh (idsE q ++ (idsE a ++ idsE b))
        { lbl := c1.lbl + 1 + 1, tmp := c1.tmp, seen := c1.seen } := hF.same T.seen
    have hF2 := hF1.right S1.2.2.2
    have hsafe : p = none ∨ (safeE pl q = true ∧ safeE pl a = true) ∧ safeE pl b = true :=
      hp.imp id fun h => by simpa only [safeE, Bool.and_eq_true] using h
    have iq := (I.e Γ none q _ _ k1 c2 ct rt p hq (hΓ.mono T.le) TgtOk.none hg.1.1
      (hsafe.imp id fun h => h.1.1) hF1.left).2
    refine Arr.test (iq _ hs σ l hR) (Nat.le_refl _) (Fr.refl _ _ _) T.le (by simp) ?_
    rintro v σ1 l1 cf hr1 hR1 hf1 ⟨rfl, hv⟩
    have hv := hv oq rfl
    have fr1 : Fr c.tmp tgt.toList l l1 := fr0 hf1 T.le
    refine Arr.step ?_
    simp only [step, hv, beq_bool]
    cases v with
    | true =>
      rw [if_neg (by simp), if_pos rfl]
      have ia := (I.e Γ none a _ _ k4 c3 ct rt p ha (hΓ.mono (by omega)) TgtOk.none hg.1.2
        (hsafe.imp id fun h => h.1.2) hF2.left).2
      have ia := ia _ (by suf hs) σ1 l1 hR1
      rw [← bind_id (evalE X F a ct σ1)]
      refine Arr.seq ia (Nat.le_refl _) fr1 (by omega) (by simp) ?_
      rintro w σ2 l2 cf hr2 hR2 hf2 ⟨rfl, hw⟩
      have hw := hw oa rfl
      refine Arr.step ?_
      simp only [step]
      refine Arr.step ?_
      simp only [step]
      rw [goto_eq hU (k := post) (by suf hs)]
      refine Arr.step ?_
      simp only [step]
      refine Arr.ret (hR2.setT j _) ((fr1.trans hf2 (by omega) (by simp)).set T.own _)
        ⟨rfl, fun o ho => ?_⟩
      cases ho
      show (l2.set _ _).env _ = _
      rw [set_same, hw]
    | false =>
      rw [if_pos (by simp), if_neg (by simp)]
      rw [goto_eq hU (k := k7 ++ (.move (.tmp j) ob :: .label (c1.lbl + 1) :: post)) (by suf hs)]
      refine Arr.step ?_
      simp only [step]
      have ib := (I.e Γ none b _ _ k7 _ ct rt p hb (hΓ.mono (by omega)) TgtOk.none hg.2
        (hsafe.imp id fun h => h.2) (hF2.right S2.2.2.2)).2
      have ib := ib _ (by suf hs) σ1 l1 hR1
      rw [← bind_id (evalE X F b ct σ1)]
      refine Arr.seq ib (Nat.le_refl _) fr1 (by omega) (by simp) ?_
      rintro w σ2 l2 cf hr2 hR2 hf2 ⟨rfl, hw⟩
      have hw := hw ob rfl
      refine Arr.step ?_
      simp only [step]
      refine Arr.step ?_
      simp only [step]
      refine Arr.ret (hR2.setT j _) ((fr1.trans hf2 (by omega) (by simp)).set T.own _)
        ⟨rfl, fun o ho => ?_⟩
      cases ho
      show (l2.set _ _).env _ = _
      rw [set_same, hw]
  | call f fl void args =>
    simp only [linE] at h
    simp only [goodE] at hg
    simp only [idsE] at hF
    obtain ⟨os, k1, c1, k2, ha, h1, rfl⟩ := bind_some.1 h
    have S1 := ST.a Γ rt args hΓ.sc hg _ _ _ _ ha
    have hsafe : p = none ∨ (fl = .plain ∧ pl f = true) ∧ safeA pl args = true :=
      hp.imp id fun h => by simpa only [safeE, Bool.and_eq_true, decide_eq_true_eq] using h
    have hfl : fl ≠ .plain → p = none := by
      intro h
      rcases hsafe with h' | h'
      · exact h'
      · exact absurd h'.1.1 h
    have ia := I.a Γ args c os k1 c1 ct rt p ha hΓ hg (hsafe.imp id fun h => h.2) hF
    cases void with
    | true =>
      simp only [if_true] at h1
      obtain ⟨k3, h2, rfl⟩ := bind_emit.1 h1
      obtain ⟨_, k4, c2, k5, hf, h3, rfl⟩ := bind_some.1 h2
      cases tgt with
      | some t => exact absurd h3 (by simp [fail])
      | none =>
        obtain ⟨rfl, rfl, rfl⟩ := pure_some.1 h3
        refine ⟨⟨by simp, by simp⟩, fun post hs σ l hR => ?_⟩
        norm
        simp only [evalE]
        refine Arr.seq (ia _ hs σ l hR) (Nat.le_refl _) (Fr.refl _ _ _) (Nat.le_refl _) (by simp) ?_
        rintro vs σ1 l1 cf hr1 hR1 hf1 ⟨rfl, hv⟩
        obtain ⟨v, e, w, hc, hd⟩ := call_cases (ct := ct) (fl := fl) (vs := vs) (σ := σ1) hpl
          (hsafe.imp id fun h => h.1)
        rcases hd with hd | ⟨hd, he⟩
        · rw [hd]; trivial
        · rw [hd]
          refine Arr.step ?_
          simp only [step, hv, hR1.err, hR1.w, hc]
          have hR2 : Rel e { σ1 with w := w } { l1 with err := e, w := w } :=
            ⟨hR1.vars, rfl, rfl, hR1.rv⟩
          have := simF' hU ih hf (hΓ.mono S1.2.1) he hfl (post := post) (by suf hs) hR2 v
          refine this.mono (Nat.le_refl _) ?_ S1.2.1 (by simp) ?_
          · exact hf1
          · rintro a l' c' ⟨rfl, rfl⟩
            exact ⟨rfl, by simp⟩
    | false =>
      simp only [Bool.false_eq_true, if_false] at h1
      have h2 := bind_freshT.1 h1
      obtain ⟨k3, h3, rfl⟩ := bind_emit.1 h2
      obtain ⟨_, k4, c2, k5, hf, h4, rfl⟩ := bind_some.1 h3
      obtain ⟨rfl, h5⟩ := superMove_some h4
      have S2 := ST.fl Γ fl hΓ.sc _ _ _ _ hf
      have L1 := S1.2.1
      have L2 := S2.2.1
      simp only at L2
      refine ⟨⟨fun t ht => ?_, fun o ho => ?_⟩, fun post hs σ l hR => ?_⟩
      · rcases h5 with ⟨rfl, rfl, rfl⟩ | ⟨t, rfl, rfl, rfl⟩
        · cases ht
        · cases ht; rfl
      · rcases h5 with ⟨rfl, rfl, rfl⟩ | ⟨t, rfl, rfl, rfl⟩
        · cases ho; exact .tmp (by omega) (by omega)
        · cases ho; exact .tgt rfl
      · norm
        simp only [evalE]
        refine Arr.seq (ia _ hs σ l hR) (Nat.le_refl _) (Fr.refl _ _ _) (Nat.le_refl _) (by simp) ?_
        rintro vs σ1 l1 cf hr1 hR1 hf1 ⟨rfl, hv⟩
        obtain ⟨v, e, w, hc, hd⟩ := call_cases (ct := ct) (fl := fl) (vs := vs) (σ := σ1) hpl
          (hsafe.imp id fun h => h.1)
        rcases hd with hd | ⟨hd, he⟩
        · rw [hd]; trivial
        · rw [hd]
          refine Arr.step ?_
          simp only [step, hv, hR1.err, hR1.w, hc]
          have hR2 : Rel e { σ1 with w := w } { l1 with err := e, w := w } :=
            ⟨hR1.vars, rfl, rfl, hR1.rv⟩
          have hR3 := hR2.setT c1.tmp v
          have := simF' hU ih hf (hΓ.mono (by simp only; omega)) he hfl (post := k5 ++ post)
            (by suf hs) hR3 v
          rw [← bind_id (failRes fl ct v e _)]
          have fr3 : Fr c.tmp tgt.toList l ({ l1 with err := e, w := w }.set (.tmp c1.tmp) v) :=
            Fr.set (t := .tmp c1.tmp) (l := { l1 with err := e, w := w })
              (fr0 (l := { l1 with err := e, w := w }) hf1 (Nat.le_refl _))
              (fun k hk he => by cases he; omega) v
          refine Arr.seq this (Nat.le_refl _) fr3 (by simp only; omega) (by simp) ?_
          rintro v' σ2 l2 cf hr2 hR4 hf4 ⟨rfl, rfl⟩
          refine superMove_sim h5 hT hR4 (fr3.trans hf4 (by simp only; omega) (by simp)) ?_
          rw [val_var, hf4 c1.tmp (Nat.lt_succ_self _) (by simp), set_same]
  | mtch void cs =>
    simp only [linE] at h
    simp only [goodE] at hg
    simp only [idsE] at hF
    have h1 := bind_freshL.1 h
    obtain ⟨k1, h2, rfl⟩ := bind_emit.1 h1
    have hps : p = none ∨ safeC pl cs = true :=
      hp.imp id fun h => by simpa only [safeE] using h
    cases void with
    | true =>
      simp only [if_true] at h2
      have h3 := bind_freshL.1 h2
      obtain ⟨_, k2, c2, k3, hc, h4, rfl⟩ := bind_some.1 h3
      obtain ⟨k4, h5, rfl⟩ := bind_emit.1 h4
      cases tgt with
      | some t => exact absurd h5 (by simp [fail])
      | none =>
        obtain ⟨rfl, rfl, rfl⟩ := pure_some.1 h5
        refine ⟨⟨by simp, by simp⟩, fun post hs σ l hR => ?_⟩
        norm
        simp only [evalE]
        refine Arr.step ?_
        simp only [step]
        have ic := I.c Γ none _ cs none none _ _ k2 _ ct rt p hc hΓ TgtOk.none hg hps (hF.same rfl)
          (.label (c.lbl + 1) :: post) (by suf hs) σ l hR trivial
        exact afterBlock (tgt := none) hU ic (by suf hs) (Fr.refl _ _ _) (Nat.le_refl _) (by simp)
    | false =>
      simp only [Bool.false_eq_true, if_false] at h2
      obtain ⟨t, c1, T, h3⟩ := bind_target (c := { lbl := c.lbl + 1, tmp := c.tmp, seen := c.seen }) hT h2
      have h3 := bind_freshL.1 h3
      obtain ⟨_, k2, c2, k3, hc, h4, rfl⟩ := bind_some.1 h3
      obtain ⟨k4, h5, rfl⟩ := bind_emit.1 h4
      obtain ⟨rfl, rfl, rfl⟩ := pure_some.1 h5
      have S1 := ST.c (Γ.block c1.lbl (some t)) _ _ cs hΓ.sc hg _ _ _ _ hc
      refine ⟨(TF.relabel (c := c) T rfl rfl).shapeOf S1.2.1, fun post hs σ l hR => ?_⟩
      norm
      simp only [evalE]
      refine Arr.step ?_
      simp only [step]
      have hTt : TgtOk (some t) c1.tmp := by
        intro t' ht'
        cases ht'
        obtain ⟨j, rfl, hj⟩ := T.name
        exact ⟨j, hj, rfl⟩
      have ic := I.c Γ (some t) _ cs none none _ _ k2 _ ct rt p hc (hΓ.mono T.le) hTt hg hps
        (hF.same T.seen) (.label c1.lbl :: post) (by suf hs) σ l hR trivial
      refine afterBlock (tg := some t) hU ic (by suf hs) (Fr.refl _ _ _) T.le ?_
      intro k hk hm
      exact T.own k hk (by simpa using hm)
  | mtchS id void kd sb cs =>
    simp only [linE] at h
    simp only [goodE, Bool.and_eq_true] at hg
    simp only [idsE] at hF
    have hpn : p = none := by
      rcases hp with h | h
      · exact h
      · simp [safeE] at h
    subst hpn
    have h1 := bind_freshL.1 h
    obtain ⟨k1, h2, rfl⟩ := bind_emit.1 h1
    -- both forms, from the subject on
    have key : ∀ (tg : Option Name) (c1 : CSt) (k : List Instr) (c' : CSt) (g : M (Option Opd)),
        TgtOk tg c1.tmp → c.tmp ≤ c1.tmp → c1.seen = c.seen →
        (∀ k, k < c.tmp → .tmp k ∈ tg.toList → .tmp k ∈ tgt.toList) →
        (∀ c b k' c', g c = some (b, k', c') → k' = [] ∧ c' = c ∧ b = tg.map Opd.var) →
        (do
          let le ← freshL
          let s ← freshT
          let _ ← linE n (Γ.block le tg) (some s) sb
          let subs ← see id s
          linC n (Γ.block le tg) (some (kd, subs)) le cs
          emit [.label le]
          g) c1 = some (r, k, c') →
        (∃ c b k' c', g c = some (b, k', c')) ∧ r = tg.map Opd.var ∧ c1.tmp ≤ c'.tmp ∧ ∀ post, (k ++ post) <:+ P → ∀ (σ : St X) l, Rel none σ l →
          Arr F F P (.run (k ++ post) l) c.tmp tgt.toList l none Γ
            ((evalE X F sb ct σ).bind fun v σ1 => evalC X F cs (some (kd, v)) tg.isNone ct σ1)
            (QE r post) := by
      intro tg c1 k c' g hTg hle hseen hex hg' h
      have h3 := bind_freshT.1 (bind_freshL.1 h)
      obtain ⟨_, k2, c2, k3, hsb, h4, rfl⟩ := bind_some.1 h3
      obtain ⟨subs, k4, c3, k5, hse, h5, rfl⟩ := bind_some.1 h4
      obtain ⟨_, k6, c4, k7, hc, h6, rfl⟩ := bind_some.1 h5
      obtain ⟨k8, h7, rfl⟩ := bind_emit.1 h6
      have hex' : ∃ c b k' c', g c = some (b, k', c') := ⟨_, _, _, _, h7⟩
      obtain ⟨rfl, rfl, rfl⟩ := hg' _ _ _ _ h7
      have S1 := ST.e (Γ.block _ tg) _ rt sb hΓ.sc hg.1 _ _ _ _ hsb
      have hF1 : Fresh (idsE sb ++ idsC cs) c :=
        ⟨(List.nodup_cons.1 hF.1).2, fun i hi => hF.2 i (List.mem_cons_of_mem _ hi)⟩
      have hid : id ∉ seenIds c2 := by
        intro hm
        rcases S1.2.2.2 _ hm with h | h
        · refine hF.2 id (by simp) ?_
          unfold seenIds at *
          rwa [hseen] at h
        · exact (List.nodup_cons.1 hF.1).1 (List.mem_append.2 (.inl h))
      obtain ⟨rfl, rfl, e3, e3', e3''⟩ := see_fresh hse hid
      have S2 := ST.c (Γ.block _ tg) _ _ cs hΓ.sc hg.2 _ _ _ _ hc
      have L1 : c1.tmp + 1 ≤ c2.tmp := S1.2.1
      have L2 := S2.2.1
      refine ⟨hex', rfl, by omega, fun post hs σ l hR => ?_⟩
      norm
      have hTs : TgtOk (some (.tmp c1.tmp)) (c1.tmp + 1) := by
        intro t ht
        cases ht
        exact ⟨_, Nat.lt_succ_self _, rfl⟩
      have hTg1 : TgtOk tg (c1.tmp + 1) := by
        intro t ht
        obtain ⟨j, hj, e⟩ := hTg t ht
        exact ⟨j, by omega, e⟩
      have is := (I.e (Γ.block c1.lbl tg) (some (.tmp c1.tmp)) sb _ _ k2 c2 ct rt none hsb
        ((hΓ.mono (Nat.le_succ_of_le hle)).block hTg1 _ rt) hTs hg.1 (.inl rfl)
        ((hF1.same (c' := { lbl := c1.lbl + 1, tmp := c1.tmp + 1, seen := c1.seen }) hseen).left)) 
      obtain ⟨shp, is⟩ := is
      have is := (is _ hs σ l hR).outer (noRetE sb ct σ)
      refine Arr.seq is (Nat.le_refl _) (Fr.refl _ _ _) (by simp only; omega) ?_ ?_
      · intro k hk hm
        simp at hm
        omega
      rintro v σ1 l1 cf hr1 hR1 hf1 ⟨rfl, hv⟩
      have fr1 : Fr c.tmp tgt.toList l l1 := hf1.weak (by simp only; omega) (fun k hk hm => by
        simp at hm; omega)
      have hv1 : l1.env (.tmp c1.tmp) = v := hv _ (shp.1 _ rfl)
      have hsub : SubOk c3.tmp tg.toList l1 (some (kd, [c1.tmp])) (some (kd, v)) := by
        refine ⟨rfl, by omega, ?_, hv1⟩
        intro hm
        obtain ⟨j, hj, e⟩ := hTg (.tmp c1.tmp) (by simpa using hm)
        cases e
        omega
      have hF2 : Fresh (idsC cs) c3 := by
        have h2 := (hF1.same (c' := { lbl := c1.lbl + 1, tmp := c1.tmp + 1, seen := c1.seen }) hseen).right
          S1.2.2.2
        refine ⟨h2.1, fun i hi hm => ?_⟩
        rw [e3''] at hm
        rcases List.mem_append.1 hm with hm | hm
        · exact h2.2 i hi hm
        · simp only [List.mem_singleton] at hm
          subst hm
          exact (List.nodup_cons.1 hF.1).1 (List.mem_append.2 (.inr hi))
      have ic := I.c Γ tg _ cs _ (some (kd, v)) c3 _ k6 _ ct rt none hc (hΓ.mono (by omega))
        (by
          intro t ht
          obtain ⟨j, hj, e⟩ := hTg t ht
          exact ⟨j, by omega, e⟩) hg.2 (.inl rfl) hF2 (.label c1.lbl :: post) (by suf hs) σ1 l1 hR1 hsub
      exact afterBlock hU ic (by suf hs) fr1 (by omega) hex
    cases void with
    | true =>
      simp only [if_true] at h2
      cases tgt with
      | some t =>
        obtain ⟨⟨_, _, _, _, h⟩, _⟩ := key none { lbl := c.lbl + 1, tmp := c.tmp, seen := c.seen } _ _
          fail TgtOk.none (Nat.le_refl _) rfl (by simp)
          (fun c b k' c' h => absurd h (by simp [fail])) h2
        exact absurd h (by simp [fail])
      | none =>
        have := key none { lbl := c.lbl + 1, tmp := c.tmp, seen := c.seen } _ _ (pure none)
          TgtOk.none (Nat.le_refl _) rfl (by simp)
          (fun c b k' c' h => by obtain ⟨rfl, rfl, rfl⟩ := pure_some.1 h; exact ⟨rfl, rfl, rfl⟩) h2
        obtain ⟨_, rfl, _, h9⟩ := this
        refine ⟨⟨by simp, by simp⟩, fun post hs σ l hR => ?_⟩
        norm
        simp only [evalE]
        refine Arr.step ?_
        simp only [step]
        exact h9 post (by suf hs) σ l hR
    | false =>
      simp only [Bool.false_eq_true, if_false] at h2
      obtain ⟨t, c1, T, h3⟩ := bind_target (c := { lbl := c.lbl + 1, tmp := c.tmp, seen := c.seen }) hT h2
      have hTt : TgtOk (some t) c1.tmp := by
        intro t' ht'
        cases ht'
        obtain ⟨j, rfl, hj⟩ := T.name
        exact ⟨j, hj, rfl⟩
      have := key (some t) c1 _ _ (pure (some (.var t))) hTt T.le T.seen
        (fun k hk hm => T.own k hk (by simpa using hm))
        (fun c b k' c' h => by obtain ⟨rfl, rfl, rfl⟩ := pure_some.1 h; exact ⟨rfl, rfl, rfl⟩) h3
      obtain ⟨_, rfl, hle, h9⟩ := this
      refine ⟨(TF.relabel (c := c) T rfl rfl).shapeOf hle, fun post hs σ l hR => ?_⟩
      norm
      simp only [evalE]
      refine Arr.step ?_
      simp only [step]
      exact h9 post (by suf hs) σ l hR
  | ctch void dflt e x b =>
    simp only [linE] at h
    simp only [goodE, Bool.and_eq_true] at hg
    simp only [idsE] at hF
    have hps : p = none ∨ safeE pl e = true :=
      hp.imp id fun h => by simp only [safeE, Bool.and_eq_true] at h; exact h.1
    have h1 := bind_freshL.1 (bind_freshL.1 h)
    cases void with
    | true =>
      simp only [if_true] at h1
      obtain ⟨_, k1, c1, k2, he, h2, rfl⟩ := bind_some.1 h1
      obtain ⟨k3, h3, rfl⟩ := bind_emit.1 h2
      obtain ⟨_, k4, c2, k5, hb, h4, rfl⟩ := bind_some.1 h3
      obtain ⟨k6, h5, rfl⟩ := bind_emit.1 h4
      cases tgt with
      | some t => exact absurd h5 (by simp [fail])
      | none =>
        obtain ⟨rfl, rfl, rfl⟩ := pure_some.1 h5
        refine ⟨⟨by simp, by simp⟩, fun post hs σ l hR => ?_⟩
        norm
        simp only [evalE]
        exact simCatch (tg := none) (tgt := none) (c := c) (dflt := dflt) (pre := []) hU hpl I he hb
          hΓ TgtOk.none hg.1.1 hg.1.2 (.inl rfl) hps (hF.same rfl) (Nat.le_refl _) (by simp) rfl hs hR
    | false =>
      simp only [Bool.false_eq_true, if_false] at h1
      obtain ⟨t, c1, T, h2⟩ := bind_target
        (c := { lbl := c.lbl + 1 + 1, tmp := c.tmp, seen := c.seen }) hT h1
      have hTt : TgtOk (some t) c1.tmp := by
        intro t' ht'
        cases ht'
        obtain ⟨j, rfl, hj⟩ := T.name
        exact ⟨j, hj, rfl⟩
      obtain ⟨_, k1, c2, k2, he, h3, rfl⟩ := bind_some.1 h2
      obtain ⟨k3, h4, rfl⟩ := bind_emit.1 h3
      have S1 := ST.e { Γ with catches := c.lbl :: Γ.catches } (some t) rt e hΓ.sc hg.1.1 _ _ _ _ he
      have gc : some t = none ∨ dflt = none ∨ calmB b = true := by
        have := hg.2
        simp only [Bool.false_or, Bool.or_eq_true, Option.isNone_iff_eq_none] at this
        exact .inr this
      cases dflt with
      | none =>
        obtain ⟨k4, h5, rfl⟩ := bind_emit.1 h4
        obtain ⟨_, k5, c3, k6, hb, h6, rfl⟩ := bind_some.1 h5
        obtain ⟨k7, h7, rfl⟩ := bind_emit.1 h6
        obtain ⟨rfl, rfl, rfl⟩ := pure_some.1 h7
        have S2 := ST.b (Γ.block (c.lbl + 1) (some t)) true b hΓ.sc hg.1.2 _ _ _ _ hb
        refine ⟨(TF.relabel (c := c) T rfl rfl).shapeOf (Nat.le_trans S1.2.1 S2.2.1), fun post hs σ l hR => ?_⟩
        norm
        simp only [evalE]
        exact simCatch (tg := some t) (tgt := tgt) (c := c) (dflt := none) (pre := []) hU hpl I he hb
          (hΓ.mono T.le) hTt hg.1.1 hg.1.2 (.inr (.inl rfl)) hps (hF.same T.seen) T.le
          (fun k hk hm => T.own k hk (by simpa using hm)) rfl hs hR
      | some d =>
        obtain ⟨k8, h8, rfl⟩ := bind_emit.1 h4
        obtain ⟨k4, h5, rfl⟩ := bind_emit.1 h8
        obtain ⟨_, k5, c3, k6, hb, h6, rfl⟩ := bind_some.1 h5
        obtain ⟨k7, h7, rfl⟩ := bind_emit.1 h6
        obtain ⟨rfl, rfl, rfl⟩ := pure_some.1 h7
        have S2 := ST.b (Γ.block (c.lbl + 1) (some t)) true b hΓ.sc hg.1.2 _ _ _ _ hb
        refine ⟨(TF.relabel (c := c) T rfl rfl).shapeOf (Nat.le_trans S1.2.1 S2.2.1), fun post hs σ l hR => ?_⟩
        norm
        simp only [evalE]
        exact simCatch (tg := some t) (tgt := tgt) (c := c) (dflt := some d)
          (pre := [.move t (.imm d)]) hU hpl I he hb
          (hΓ.mono T.le) hTt hg.1.1 hg.1.2 gc hps (hF.same T.seen) T.le
          (fun k hk hm => T.own k hk (by simpa using hm)) rfl hs hR

end Nature.Linear
