import Verif.Linear.SimX

/-! # Arguments, conditions and the cases of a `match`: the simulation -/
namespace Nature.Linear

open Spec

variable {X : Ext} {P : List Instr} {F : Nat} {pl : Nat → Bool} {A : List Nat} {n : Nat}

/-- Something more after a piece that ended normally. -/
theorem Arr.post {α : Type} {B N : Nat} {ex : List Name} {l0 : LSt X} {p : Option Val} {Γ : Ctx}
    {s : Cfg X} {r : Res X α} {Q1 Q : α → LSt X → Cfg X → Prop}
    (h : Arr F B P s N ex l0 p Γ r Q1)
    (h2 : ∀ a σ l c, r = .ok a σ → Rel p σ l → Fr N ex l0 l → Q1 a l c →
      Arr F B P c N ex l0 p Γ (.ok a σ) Q) : Arr F B P s N ex l0 p Γ r Q := by
  rw [← bind_id r]
  exact Arr.seq h (Nat.le_refl _) (Fr.refl _ _ _) (Nat.le_refl _) (fun _ _ h => h) h2

theorem simA (I : Sim X F P pl A n) : ∀ Γ a c r k c' ct rt p, linA (n + 1) Γ a c = some (r, k, c') →
    CtxOk pl A Γ c.tmp ct rt → goodA pl A rt a = true →
    (p = none ∨ safeA pl a = true) → Fresh (idsA a) c → ∀ post, (k ++ post) <:+ P →
    ∀ (σ : St X) l, Rel p σ l →
    Arr F F P (.run (k ++ post) l) c.tmp [] l p Γ (evalA X F a ct σ)
      (fun vs l' cf => cf = .run post l' ∧ r.map (·.val l') = vs) := by
  intro Γ a c r k c' ct rt p h hΓ hg hp hF post hs σ l hR
  have ST := stat (pl := pl) (A := A) n
  cases a with
  | nil =>
    simp only [linA] at h
    obtain ⟨rfl, rfl, rfl⟩ := pure_some.1 h
    exact Arr.ret hR (Fr.refl _ _ _) ⟨rfl, rfl⟩
  | cons e rest =>
    simp only [linA] at h
    simp only [goodA, Bool.and_eq_true] at hg
    simp only [idsA] at hF
    have hpe : p = none ∨ safeE pl e = true :=
      hp.imp id fun h => by simp only [safeA, Bool.and_eq_true] at h; exact h.1
    have hpr : p = none ∨ safeA pl rest = true :=
      hp.imp id fun h => by simp only [safeA, Bool.and_eq_true] at h; exact h.2
    obtain ⟨_, k1, c1, k2, he, h1, rfl⟩ := bind_some.1 h
    obtain ⟨o, rfl, h2⟩ := bind_need.1 h1
    obtain ⟨o', k3, c2, k4, ho, h3, rfl⟩ := bind_some.1 h2
    obtain ⟨os, k5, c3, k6, hr, h4, rfl⟩ := bind_some.1 h3
    obtain ⟨rfl, rfl, rfl⟩ := pure_some.1 h4
    norm
    have S1 := ST.e Γ none rt e hΓ.sc hg.1.1 _ _ _ _ he
    obtain ⟨sh, ie⟩ := I.e Γ none e c _ k1 c1 ct rt p he hΓ TgtOk.none hg.1.1 hpe hF.left
    simp only [evalA]
    refine Arr.seq (ie _ hs σ l hR) (Nat.le_refl _) (Fr.refl _ _ _) (Nat.le_refl _) (by simp) ?_
    rintro v σ1 l1 cf hr1 hR1 hf1 ⟨rfl, hv⟩
    have hv := hv o rfl
    cases o with
    | var x =>
      obtain ⟨rfl, rfl, rfl⟩ := pure_some.1 ho
      norm
      refine Arr.seq (I.a Γ rest _ _ _ _ ct rt p hr (hΓ.mono S1.2.1) hg.1.2 hpr
        (hF.right S1.2.2.2) _ (by suf hs) σ1 l1 hR1) (Nat.le_refl _) hf1 S1.2.1 (by simp) ?_
      rintro vs σ2 l2 cf hr2 hR2 hf2 ⟨rfl, hvs⟩
      refine Arr.ret hR2 (hf1.trans hf2 S1.2.1 (by simp)) ⟨rfl, ?_⟩
      have hva : (Opd.var x).val l2 = (Opd.var x).val l1 := by
        refine (sh.2 _ rfl).keep hg.2 hR1 hR2 (fun y hy => ?_) hf2 (Nat.le_refl _)
        have := keepA (X := X) (F := F) rest hy ct σ1 rfl
        rw [hr2] at this
        exact this
      rw [List.map_cons, hvs, hva, hv]
    | imm w =>
      have ho2 := bind_freshT.1 ho
      obtain ⟨k7, ho3, rfl⟩ := bind_emit.1 ho2
      obtain ⟨rfl, rfl, rfl⟩ := pure_some.1 ho3
      norm
      refine Arr.step ?_
      simp only [step]
      have fr : Fr c.tmp [] l (l1.set (.tmp c1.tmp) ((Opd.imm w).val l1)) :=
        hf1.set (fun k hk he => by cases he; exact absurd S1.2.1 (by omega)) _
      refine Arr.seq (I.a Γ rest _ _ _ _ ct rt p hr (hΓ.mono (Nat.le_succ_of_le S1.2.1)) hg.1.2 hpr
        ((hF.right S1.2.2.2).same rfl) _ (by suf hs) σ1 _ (hR1.setT c1.tmp _)) (Nat.le_refl _) fr
        (Nat.le_succ_of_le S1.2.1) (by simp) ?_
      rintro vs σ2 l2 cf hr2 hR2 hf2 ⟨rfl, hvs⟩
      refine Arr.ret hR2 (fr.trans hf2 (Nat.le_succ_of_le S1.2.1) (by simp)) ⟨rfl, ?_⟩
      rw [List.map_cons, hvs, val_var, hf2 c1.tmp (Nat.lt_succ_self _) (by simp), set_same, hv]

/-! ## Conditions of a case -/

theorem SubOk.frame {N N' : Nat} {ex : List Name} {l l' : LSt X} {sub vsub}
    (h : SubOk N ex l sub vsub) (hf : Fr N ex l l') (hN : N ≤ N') : SubOk N' ex l' sub vsub := by
  match sub, vsub, h with
  | none, none, _ => trivial
  | some (k, [s]), some (k', v), ⟨h1, h2, h3, h4⟩ =>
    exact ⟨h1, Nat.lt_of_lt_of_le h2 hN, h3, by rw [hf s h2 h3]; exact h4⟩

theorem SubOk.nil {N : Nat} {ex : List Name} {l : LSt X} {sub vsub}
    (h : SubOk N ex l sub vsub) : SubOk N [] l sub vsub := by
  match sub, vsub, h with
  | none, none, _ => trivial
  | some (k, [s]), some (k', v), ⟨h1, h2, h3, h4⟩ => exact ⟨h1, h2, by simp, h4⟩

/-- The test for one condition. -/
def condVal (X : Ext) (vsub : Option (Kind × Val)) (v : Val) : Val :=
  match vsub with
  | none => v
  | some (k, u) => .b (cmpVal X k .ee v u)

theorem simCond (ih : ∀ m, m ≤ n → Sim X F P pl A m) {Γ : Ctx} {e : Expr} {sub vsub} {c c' : CSt} {r}
    {k : List Instr} {ct : Bool} {p : Option Val}
    (h : linE n Γ none (match sub with | none => e | some (k, subs) => wrap k e subs) c
      = some (r, k, c')) (hΓ : CtxOk pl A Γ c.tmp ct true) (hg : goodE pl A true e = true)
    (hp : p = none ∨ safeE pl e = true) (hF : Fresh (idsE e) c) {post : List Instr}
    (hs : (k ++ post) <:+ P) {σ : St X} {l : LSt X} (hR : Rel p σ l) (hsub : SubOk c.tmp [] l sub vsub) :
    Arr F F P (.run (k ++ post) l) c.tmp [] l p Γ (evalE X F e ct σ)
      (fun v l' cf => cf = .run post l' ∧ ∀ o, r = some o → o.val l' = condVal X vsub v) := by
  match sub, vsub, hsub with
  | none, none, _ =>
    exact ((ih n (Nat.le_refl n)).e Γ none e c _ k c' ct true p h hΓ TgtOk.none hg hp hF).2 _ hs σ l hR
  | some (kd, [s]), some (kd', u), ⟨h1, h2, _, h4⟩ =>
    subst h1
    cases n with
    | zero => simp [linE, fail] at h
    | succ m =>
      simp only [wrap, List.foldl_nil, linE] at h
      have h5 := bind_freshT.1 h
      obtain ⟨_, k1, c1, k2, he, h6, rfl⟩ := bind_some.1 h5
      obtain ⟨o, rfl, h7⟩ := bind_need.1 h6
      obtain ⟨_, k3, c2, k4, hv, h8, rfl⟩ := bind_some.1 h7
      obtain ⟨o2, rfl, h9⟩ := bind_need.1 h8
      obtain ⟨k5, h10, rfl⟩ := bind_emit.1 h9
      obtain ⟨rfl, rfl, rfl⟩ := pure_some.1 h10
      cases m with
      | zero => simp [linE, fail] at he
      | succ m =>
        simp only [linE] at hv
        obtain ⟨rfl, hv2⟩ := superMove_some hv
        obtain ⟨_, hv3, rfl⟩ : none = none ∧ some o2 = some (Opd.var (.tmp s)) ∧ k3 = [] := by
          rcases hv2 with hv2 | ⟨t, hv2, _⟩
          · exact hv2
          · cases hv2
        cases hv3
        norm
        have ie := ((ih (m + 1) (Nat.le_succ _)).e Γ none e _ _ k1 _ ct true p he
          (hΓ.mono (Nat.le_succ _)) TgtOk.none hg hp (hF.same rfl)).2 _ hs σ l hR
        have ie2 := ie.mono (N := c.tmp) (ex := []) (l0 := l) (Nat.le_refl _) (Fr.refl _ _ _) (Nat.le_succ _) (by simp)
          (fun _ _ _ h => h)
        refine Arr.post ie2 ?_
        rintro v σ1 l1 cf hr1 hR1 hf1 ⟨rfl, hv⟩
        refine Arr.step ?_
        simp only [step]
        refine Arr.ret (hR1.setT _ _) (hf1.set (fun k hk he => by cases he; omega) _) ⟨rfl, fun o' ho' => ?_⟩
        cases ho'
        rw [val_var, set_same, hv o rfl, val_var, hf1 s h2 (by simp), h4]
        rfl

theorem simK (ih : ∀ m, m ≤ n → Sim X F P pl A m) : ∀ Γ a sub vsub lh c u k c' ct p,
    linK (n + 1) Γ sub lh a c = some (u, k, c') →
    CtxOk pl A Γ c.tmp ct true → goodK pl A a = true →
    (p = none ∨ safeA pl a = true) → Fresh (idsA a) c → ∀ post, (k ++ post) <:+ P →
    ∀ (σ : St X) l, Rel p σ l → SubOk c.tmp [] l sub vsub →
    Arr F F P (.run (k ++ post) l) c.tmp [] l p Γ (anyHolds X F a vsub ct σ)
      (fun t l' cf => cf = if t then goto P lh l' else .run post l') := by
  intro Γ a sub vsub lh c u k c' ct p h hΓ hg hp hF post hs σ l hR hsub
  have I := ih n (Nat.le_refl n)
  cases a with
  | nil =>
    simp only [linK] at h
    obtain ⟨rfl, rfl, rfl⟩ := pure_some.1 h
    exact Arr.ret hR (Fr.refl _ _ _) rfl
  | cons e rest =>
    simp only [linK] at h
    simp only [goodK, Bool.and_eq_true] at hg
    simp only [idsA] at hF
    have hpe : p = none ∨ safeE pl e = true :=
      hp.imp id fun h => by simp only [safeA, Bool.and_eq_true] at h; exact h.1
    have hpr : p = none ∨ safeA pl rest = true :=
      hp.imp id fun h => by simp only [safeA, Bool.and_eq_true] at h; exact h.2
    obtain ⟨_, k1, c1, k2, he, h1, rfl⟩ := bind_some.1 h
    obtain ⟨o, rfl, h2⟩ := bind_need.1 h1
    obtain ⟨k3, h3, rfl⟩ := bind_emit.1 h2
    norm
    have S1 : c.tmp ≤ c1.tmp ∧ ∀ i, i ∈ seenIds c1 → i ∈ seenIds c ∨ i ∈ idsE e := by
      have : SOk (linE n Γ none (match (generalizing := false) sub with | none => e | some (k, subs) => wrap k e subs))
          (fun _ => 0) (idsE e) := by
        cases sub with
        | none => exact (stat (pl := pl) (A := A) n).e Γ none true e hΓ.sc hg.1
        | some ks =>
          exact SOk.wrap (n := n) (fun m _ => (stat (pl := pl) (A := A) m).e) hΓ.sc hg.1 _ _ n
            (Nat.le_refl n) _
      have := this _ _ _ _ he
      exact ⟨this.2.1, this.2.2.2⟩
    simp only [anyHolds]
    refine Arr.seq (simCond ih he hΓ hg.1 hpe hF.left hs hR hsub) (Nat.le_refl _) (Fr.refl _ _ _)
      (Nat.le_refl _) (by simp) ?_
    rintro v σ1 l1 cf hr1 hR1 hf1 ⟨rfl, hv⟩
    have hv := hv o rfl
    have cont : ∀ t : Bool, condVal X vsub v = .b t →
        Arr F F P (.run (.beq (.b true) o lh :: (k3 ++ post)) l1) c.tmp [] l p Γ
          (if t = true then .ok true σ1 else anyHolds X F rest vsub ct σ1)
          (fun t l' cf => cf = if t then goto P lh l' else .run post l') := by
      intro t ht
      refine Arr.step ?_
      simp only [step]
      rw [hv, ht, beq_bool]
      cases t with
      | true => exact Arr.ret hR1 hf1 rfl
      | false =>
        simp only [Bool.false_eq_true, if_false]
        exact (I.k Γ rest sub vsub lh _ _ _ _ ct p h3 (hΓ.mono S1.1) hg.2 hpr (hF.right S1.2) post
          (by suf hs) σ1 l1 hR1 (hsub.frame hf1 S1.1)).mono (Nat.le_refl _) hf1 S1.1 (by simp)
            (fun _ _ _ h => h)
    cases vsub with
    | some ku =>
      obtain ⟨kd, u⟩ := ku
      exact cont _ rfl
    | none =>
      cases v with
      | b t => exact cont t rfl
      | _ => trivial

/-! ## Cases -/

theorem anyHolds_atoms : ∀ (a : Args), atoms a = true → ∀ sub ct (σ : St X),
    (∃ t, anyHolds X F a sub ct σ = .ok t σ) ∨ anyHolds X F a sub ct σ = .exit .stuck σ
  | .nil, _, sub, ct, σ => .inl ⟨false, rfl⟩
  | .cons e rest, h, sub, ct, σ => by
    simp only [atoms, Bool.and_eq_true] at h
    have ev : ∃ v, evalE X F e ct σ = .ok v σ := by
      cases e with
      | lit v => exact ⟨v, rfl⟩
      | var x => cases x with
        | src x => exact ⟨_, rfl⟩
        | tmp x => simp [atom] at h
      | _ => simp [atom] at h
    obtain ⟨v, ev⟩ := ev
    simp only [anyHolds, ev, Res.bind]
    have := anyHolds_atoms rest h.2 sub ct σ
    split
    · split
      · exact .inl ⟨true, rfl⟩
      · exact this
    · split
      · exact .inl ⟨true, rfl⟩
      · exact this
    · exact .inr rfl

theorem simC (hU : Uniq P) (I : Sim X F P pl A n) : ∀ Γ tg le cs sub vsub c u k c' ct rt p,
    linC (n + 1) (Γ.block le tg) sub le cs c = some (u, k, c') →
    CtxOk pl A Γ c.tmp ct rt → TgtOk tg c.tmp → goodC pl A cs = true →
    (p = none ∨ safeC pl cs = true) → Fresh (idsC cs) c → ∀ post, (k ++ post) <:+ P →
    ∀ (σ : St X) l, Rel p σ l → SubOk c.tmp tg.toList l sub vsub →
    Arr F F P (.run (k ++ post) l) c.tmp tg.toList l p Γ (evalC X F cs vsub tg.isNone ct σ)
      (fun v l' cf => cf = goto P le l' ∧ ∀ t, tg = some t → l'.env t = v) := by
  intro Γ tg le cs sub vsub c u k c' ct rt p h hΓ hT hg hp hF post hs σ l hR hsub
  have ST := stat (pl := pl) (A := A) n
  -- the block of a case
  have blk : ∀ (b : Body) (c1 c2 : CSt) u1 k1 lhe rest (σ1 : St X) l1,
      linB n (Γ.block le tg) b c1 = some (u1, k1, c2) → c.tmp ≤ c1.tmp → goodB pl A true b = true →
      (p = none ∨ safeB pl b = true) → Fresh (idsB b) c1 →
      (k1 ++ .bal le :: .label lhe :: rest) <:+ P → Rel p σ1 l1 → Fr c.tmp tg.toList l l1 →
      Arr F F P (.run (k1 ++ .bal le :: .label lhe :: rest) l1) c.tmp tg.toList l p Γ
        (blockValue tg.isNone none (execB X F b ct [] σ1))
        (fun v l' cf => cf = goto P le l' ∧ ∀ t, tg = some t → l'.env t = v) := by
    intro b c1 c2 u1 k1 lhe rest σ1 l1 hb hle gb pb fb sb hR1 fr1
    have hT1 : TgtOk tg c1.tmp := by
      intro t ht
      obtain ⟨j, hj, e⟩ := hT t ht
      exact ⟨j, by omega, e⟩
    have ib := I.b (Γ.block le tg) b c1 _ k1 c2 ct true p tg.toList hb
      ((hΓ.mono hle).block hT1 le true) gb
      (.inr (by intro t ht; cases tg <;> simp_all [Linear.hd])) pb fb _ sb σ1 l1 hR1
    refine Arr.block (fun s hs => (hΓ.dep s hs).2.2.1)
      (ib.mono (Nat.le_refl _) fr1 hle (fun _ _ h => h) (fun _ _ _ h => h)) ?_ ?_
    · intro v σ2 l2 hR2 hf2 hv
      exact Arr.ret hR2 hf2 ⟨rfl, hv⟩
    · rintro σ2 l2 cf hR2 hf2 ⟨rfl, _⟩
      refine Arr.step ?_
      simp only [step, blockValue]
      cases tg with
      | none => exact Arr.ret hR2 hf2 ⟨rfl, by simp⟩
      | some t => trivial
  cases cs with
  | last d ks b =>
    simp only [linC] at h
    simp only [goodC, Bool.and_eq_true] at hg
    simp only [idsC] at hF
    have hpb : p = none ∨ safeB pl b = true :=
      hp.imp id fun h => by simp only [safeC, Bool.and_eq_true] at h; exact h.2
    have h1 := bind_freshL.1 (bind_freshL.1 h)
    obtain ⟨k1, h2, rfl⟩ := bind_emit.1 h1
    obtain ⟨_, k2, c2, k3, hb, h3, rfl⟩ := bind_some.1 h2
    obtain ⟨rfl, rfl⟩ := emit_some.1 h3
    norm
    have key : Arr F F P (.run (.label c.lbl :: (k2 ++ .bal le :: .label (c.lbl + 1) :: post)) l)
        c.tmp tg.toList l p Γ (blockValue tg.isNone none (execB X F b ct [] σ))
        (fun v l' cf => cf = goto P le l' ∧ ∀ t, tg = some t → l'.env t = v) := by
      refine Arr.step ?_
      simp only [step]
      exact blk b _ _ _ k2 _ post σ l hb (Nat.le_refl _) hg.2 hpb
        ((hF.right (fun i hi => .inl hi)).same rfl) (by suf hs) hR (Fr.refl _ _ _)
    cases d with
    | true =>
      simp only [evalC]
      exact key
    | false =>
      have ha : atoms ks = true := by simpa using hg.1
      simp only [evalC]
      rcases anyHolds_atoms ks ha vsub ct σ with ⟨t, e⟩ | e
      · rw [e]
        cases t with
        | true => exact key
        | false => trivial
      · rw [e]
        trivial
  | cons ks b rest =>
    simp only [linC] at h
    simp only [goodC, Bool.and_eq_true] at hg
    simp only [idsC] at hF
    have hpk : p = none ∨ safeA pl ks = true :=
      hp.imp id fun h => by simp only [safeC, Bool.and_eq_true] at h; exact h.1.1
    have hpb : p = none ∨ safeB pl b = true :=
      hp.imp id fun h => by simp only [safeC, Bool.and_eq_true] at h; exact h.1.2
    have hpr : p = none ∨ safeC pl rest = true :=
      hp.imp id fun h => by simp only [safeC, Bool.and_eq_true] at h; exact h.2
    have h1 := bind_freshL.1 (bind_freshL.1 h)
    obtain ⟨_, k1, c1, k2, hk, h2, rfl⟩ := bind_some.1 h1
    obtain ⟨k3, h3, rfl⟩ := bind_emit.1 h2
    obtain ⟨_, k4, c2, k5, hb, h4, rfl⟩ := bind_some.1 h3
    obtain ⟨k6, h5, rfl⟩ := bind_emit.1 h4
    norm
    have S1 := ST.k (Γ.block le tg) sub _ ks hΓ.sc hg.1.1 _ _ _ _ hk
    have S2 := ST.b (Γ.block le tg) true b hΓ.sc hg.1.2 _ _ _ _ hb
    have L1 : c.tmp ≤ c1.tmp := S1.2.1
    have hF0 : Fresh (idsA ks ++ (idsB b ++ idsC rest)) { lbl := c.lbl + 1 + 1, tmp := c.tmp, seen := c.seen } := by
      exact hF.same rfl
    have ik := (I.k (Γ.block le tg) ks sub vsub _ _ _ k1 c1 ct p hk (hΓ.block hT le true) hg.1.1 hpk
      hF0.left _ hs σ l hR hsub.nil).outer (noRetK ks vsub ct σ)
    simp only [evalC]
    refine Arr.seq ik (Nat.le_refl _) (Fr.refl _ _ _) (Nat.le_refl _) (by simp) ?_
    rintro t σ1 l1 cf hr1 hR1 hf1 rfl
    have hF1 := hF0.right S1.2.2.2
    cases t with
    | true =>
      simp only [if_true]
      rw [goto_eq hU (k := k4 ++ .bal le :: .label (c.lbl + 1) :: (k6 ++ post)) (by suf hs)]
      refine Arr.step ?_
      simp only [step]
      exact blk b _ _ _ k4 _ _ σ1 l1 hb L1 hg.1.2 hpb hF1.left (by suf hs) hR1 (fr0 hf1 (Nat.le_refl _))
    | false =>
      simp only [Bool.false_eq_true, if_false]
      refine Arr.step ?_
      simp only [step]
      rw [goto_eq hU (k := k6 ++ post) (by suf hs)]
      refine Arr.step ?_
      simp only [step]
      have hT2 : TgtOk tg c2.tmp := by
        intro t ht
        obtain ⟨j, hj, e⟩ := hT t ht
        exact ⟨j, Nat.lt_of_lt_of_le hj (Nat.le_trans L1 S2.2.1), e⟩
      exact (I.c Γ tg le rest sub vsub c2 _ k6 c' ct rt p h5 (hΓ.mono (Nat.le_trans L1 S2.2.1)) hT2 hg.2
        hpr (hF1.right S2.2.2.2) post (by suf hs) σ1 l1 hR1
        (hsub.frame (fr0 hf1 (Nat.le_refl _)) (Nat.le_trans L1 S2.2.1))).mono (Nat.le_refl _)
          (fr0 hf1 (Nat.le_refl _)) (Nat.le_trans L1 S2.2.1) (fun _ _ h => h) (fun _ _ _ h => h)

/-! ## Jumps on a condition -/

theorem ifAlert_not {k : Kind} (hk : k.isStr = false) (hf : k ≠ .f) (c : Cmp) (v w : Val) :
    cmpVal X k (ifAlert c) v w = !cmpVal X k c v w := by
  have ord : ∀ x y : Int, cmpOrd (ifAlert c) x y = !cmpOrd c x y := by
    intro x y
    rw [Bool.eq_iff_iff]
    cases c <;> simp only [ifAlert, cmpOrd, Bool.not_eq_true', decide_eq_true_eq,
      decide_eq_false_iff_not] <;> omega
  cases k with
  | s => exact ord _ _
  | u => exact ord _ _
  | f => exact absurd rfl hf
  | str => cases hk

theorem simJ (I : Sim X F P pl A n) : ∀ Γ e t i c u k c' ct rt p,
    linJ (n + 1) Γ e t i c = some (u, k, c') →
    CtxOk pl A Γ c.tmp ct rt → goodE pl A rt e = true → (i = true → fltJump e = false) →
    (p = none ∨ safeE pl e = true) → Fresh (idsE e) c → ∀ post, (k ++ post) <:+ P →
    ∀ (σ : St X) l, Rel p σ l →
    Arr F F P (.run (k ++ post) l) c.tmp [] l p Γ (evalE X F e ct σ)
      (fun v l' cf => ∀ b, v = .b b → cf = if b = i then .run post l' else goto P t l') := by
  intro Γ e t i c u k c' ct rt p h hΓ hg hfl hp hF post hs σ l hR
  -- the value is computed first
  have gen : (do
      let o ← linE n Γ none e
      let o ← need o
      emit [.beq (.b (!i)) o t]) c = some (u, k, c') →
      Arr F F P (.run (k ++ post) l) c.tmp [] l p Γ (evalE X F e ct σ)
        (fun v l' cf => ∀ b, v = .b b → cf = if b = i then .run post l' else goto P t l') := by
    intro h
    obtain ⟨_, k1, c1, k2, he, h1, rfl⟩ := bind_some.1 h
    obtain ⟨o, rfl, h2⟩ := bind_need.1 h1
    obtain ⟨rfl, rfl⟩ := emit_some.1 h2
    norm
    have ie := (I.e Γ none e c _ k1 _ ct rt p he hΓ TgtOk.none hg hp hF).2 _ hs σ l hR
    refine Arr.post ie ?_
    rintro v σ1 l1 cf hr1 hR1 hf1 ⟨rfl, hv⟩
    have hv := hv o rfl
    refine Arr.step ?_
    refine Arr.ret hR1 hf1 ?_
    rintro b rfl
    simp only [step]
    rw [hv, beq_bool]
    cases b <;> cases i <;> rfl
  cases e with
  | cmp kd cm a b =>
    simp only [linJ] at h
    cases hk : kd.isStr with
    | true =>
      rw [if_pos hk] at h
      exact gen h
    | false =>
      rw [if_neg (by simp [hk])] at h
      simp only [goodE, Bool.and_eq_true] at hg
      simp only [idsE] at hF
      obtain ⟨_, k1, c1, k2, ha, h1, rfl⟩ := bind_some.1 h
      obtain ⟨oa, rfl, h2⟩ := bind_need.1 h1
      obtain ⟨_, k3, c2, k4, hb, h3, rfl⟩ := bind_some.1 h2
      obtain ⟨ob, rfl, h4⟩ := bind_need.1 h3
      obtain ⟨rfl, rfl⟩ := emit_some.1 h4
      norm
      simp only [evalE]
      refine operands I ha hb hΓ hg.1.1 hg.1.2 hg.2
        (hp.imp id fun h => by simp only [safeE, Bool.and_eq_true] at h; exact h.1)
        (hp.imp id fun h => by simp only [safeE, Bool.and_eq_true] at h; exact h.2)
        hF hs hR (Nat.le_refl _) (Fr.refl _ _ _) ?_
      intro v w σ2 l2 hR2 hf2 hv hw
      refine Arr.step ?_
      refine Arr.ret hR2 hf2 ?_
      intro b hb
      cases hb
      simp only [step]
      rw [hv, hw]
      cases i with
      | true =>
        have hf : kd ≠ .f := by
          rintro rfl
          have := hfl rfl
          simp [fltJump] at this
        simp only [if_true]
        rw [ifAlert_not hk hf]
        cases cmpVal X kd cm v w <;> rfl
      | false =>
        simp only [Bool.false_eq_true, if_false, forContinue, id]
        cases cmpVal X kd cm v w <;> rfl
  | _ =>
    simp only [linJ] at h
    exact gen h

end Nature.Linear
