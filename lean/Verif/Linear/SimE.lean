import Verif.Linear.Sim

/-! # Expressions: the simulation -/
namespace Nature.Linear

open Spec

variable {X : Ext} {P : List Instr} {F : Nat} {pl : Nat → Bool} {A : List Nat} {n : Nat}

theorem val_var (l : LSt X) (x : Name) : (Opd.var x).val l = l.env x := rfl
theorem val_imm (l : LSt X) (v : Val) : (Opd.imm v).val l = v := rfl

theorem TF.shapeOf {tgt : Option Name} {t : Name} {c c1 c' : CSt} {e : Expr} (T : TF tgt t c c1)
    (h : c1.tmp ≤ c'.tmp) : ROk tgt e c c' (some (.var t)) := by
  refine ⟨fun t' ht => ?_, fun o ho => ?_⟩
  · rcases T.shape with h1 | ⟨h1, _⟩
    · rw [ht] at h1; cases h1; rfl
    · rw [ht] at h1; cases h1
  cases ho
  rcases T.shape with h1 | ⟨_, j, rfl, h1, h2⟩
  · exact .tgt h1
  · exact .tmp h1 (by omega)

theorem superMove_some {tgt : Option Name} {o : Opd} {c c' : CSt} {r k}
    (h : superMove tgt o c = some (r, k, c')) :
    c' = c ∧ ((tgt = none ∧ r = some o ∧ k = []) ∨
      ∃ t, tgt = some t ∧ r = some (.var t) ∧ k = [.move t o]) := by
  cases tgt with
  | none =>
    obtain ⟨rfl, rfl, rfl⟩ := pure_some.1 h
    exact ⟨rfl, .inl ⟨rfl, rfl, rfl⟩⟩
  | some t =>
    obtain ⟨k2, h1, rfl⟩ := bind_emit.1 h
    obtain ⟨rfl, rfl, rfl⟩ := pure_some.1 h1
    exact ⟨rfl, .inr ⟨t, rfl, rfl, rfl⟩⟩

/-- Moving a value to where it is wanted. -/
theorem superMove_sim {tgt : Option Name} {o : Opd} {r : Option Opd} {k post : List Instr}
    (h : (tgt = none ∧ r = some o ∧ k = []) ∨
      ∃ t, tgt = some t ∧ r = some (.var t) ∧ k = [.move t o])
    {N : Nat} (hT : TgtOk tgt N) {p : Option Val} {Γ : Ctx} {σ : St X} {l0 l : LSt X} {v : Val}
    (hR : Rel p σ l) (hf : Fr N tgt.toList l0 l) (hv : o.val l = v) {B : Nat} :
    Arr F B P (.run (k ++ post) l) N tgt.toList l0 p Γ (.ok v σ) (QE r post) := by
  rcases h with ⟨rfl, rfl, rfl⟩ | ⟨t, rfl, rfl, rfl⟩
  · exact Arr.ret hR hf ⟨rfl, fun o' ho => by cases ho; exact hv⟩
  · obtain ⟨j, hj, rfl⟩ := hT _ rfl
    refine Arr.step ?_
    simp only [step]
    refine Arr.ret (hR.setT j _) (hf.set (fun k _ he => by simp [he]) _) ⟨rfl, fun o' ho => ?_⟩
    cases ho
    show (l.set _ _).env _ = v
    rw [set_same, hv]

theorem fr0 {N N' : Nat} {ex : List Name} {l0 l : LSt X} (h : Fr N' [] l0 l) (hN : N ≤ N') :
    Fr N ex l0 l := h.weak hN (by simp)

/-- Two operands, left to right. -/
theorem operands (I : Sim X F P pl A n) {Γ : Ctx} {ct rt : Bool} {p : Option Val} {a b : Expr}
    {oa ob : Opd} {k1 k3 : List Instr} {c1 c2 c3 : CSt}
    (ha : linE n Γ none a c1 = some (some oa, k1, c2))
    (hb : linE n Γ none b c2 = some (some ob, k3, c3))
    (hΓ : CtxOk pl A Γ c1.tmp ct rt) (ga : goodE pl A rt a = true) (gb : goodE pl A rt b = true)
    (hk : keeps a (asgE b) = true) (hpa : p = none ∨ safeE pl a = true)
    (hpb : p = none ∨ safeE pl b = true) (hF : Fresh (idsE a ++ idsE b) c1) {post : List Instr}
    (hs : (k1 ++ (k3 ++ post)) <:+ P) {σ : St X} {l l0 : LSt X} (hR : Rel p σ l) {N : Nat}
    {ex : List Name} (hN : N ≤ c1.tmp) (fr : Fr N ex l0 l) {α : Type}
    {f : Val → Val → St X → Res X α} {Q : α → LSt X → Cfg X → Prop}
    (cont : ∀ v w σ2 l2, Rel p σ2 l2 → Fr N ex l0 l2 → oa.val l2 = v → ob.val l2 = w →
      Arr F F P (.run post l2) N ex l0 p Γ (f v w σ2) Q) :
    Arr F F P (.run (k1 ++ (k3 ++ post)) l) N ex l0 p Γ
      ((evalE X F a ct σ).bind fun v σ1 => (evalE X F b ct σ1).bind fun w σ2 => f v w σ2) Q := by
  have S1 := (stat (pl := pl) (A := A) n).e Γ none rt a hΓ.sc ga _ _ _ _ ha
  obtain ⟨sh, ia⟩ := I.e Γ none a c1 _ k1 c2 ct rt p ha hΓ TgtOk.none ga hpa hF.left
  refine Arr.seq (ia _ hs σ l hR) (Nat.le_refl _) fr hN (by simp) ?_
  rintro v σ1 l1 cf hr1 hR1 hf1 ⟨rfl, hv⟩
  have hv := hv oa rfl
  obtain ⟨_, ib⟩ := I.e Γ none b c2 _ k3 c3 ct rt p hb (hΓ.mono S1.2.1) TgtOk.none gb hpb
    (hF.right S1.2.2.2)
  refine Arr.seq (ib _ (by suf hs) σ1 l1 hR1) (Nat.le_refl _)
    (fr.trans hf1 hN (by simp)) (Nat.le_trans hN S1.2.1) (by simp) ?_
  rintro w σ2 l2 cf hr2 hR2 hf2 ⟨rfl, hw⟩
  have hw := hw ob rfl
  have hva : oa.val l2 = oa.val l1 := by
    refine (sh.2 oa rfl).keep hk hR1 hR2 (fun x hx => ?_) hf2 (Nat.le_refl _)
    have := keepE (X := X) (F := F) b hx ct σ1 rfl
    rw [hr2] at this
    exact this
  exact cont v w σ2 l2 hR2
    ((fr.trans hf1 hN (by simp)).trans hf2 (Nat.le_trans hN S1.2.1) (by simp)) (hva.trans hv) hw

/-! ## Calls -/

/-- What a call comes to once the callee has returned. -/
def failRes (fl : Fail) (ct : Bool) (v : Val) (e : Option Val) (σ : St X) : Res X Val :=
  match fl, e with
  | .plain, _ => .ok v σ
  | _, none => .ok v σ
  | .errable, some e => .exit (.err e) σ
  | .panics, some e => .exit (if ct then .err e else .abort) σ

theorem exitCfg_err (Γ : Ctx) (l : LSt X) (e : Val) :
    exitCfg P Γ l (.err e) = goto P (errTarget Γ) l := rfl

/-- The check after a call. -/
theorem simF (hU : Uniq P) (I : Sim X F P pl A n) {Γ : Ctx} {fl : Fail} {c : CSt} {u} {k : List Instr}
    {c' : CSt} {ct rt : Bool} {p e : Option Val}
    (h : linFail (n + 1) Γ fl c = some (u, k, c')) (hΓ : CtxOk pl A Γ c.tmp ct rt)
    (he : fl = .plain → e = p) (hp : fl ≠ .plain → p = none) {post : List Instr}
    (hs : (k ++ post) <:+ P) {σ : St X} {l : LSt X} (hR : Rel e σ l) (v : Val) :
    Arr F F P (.run (k ++ post) l) c.tmp [] l p Γ (failRes fl ct v e σ)
      (fun v' l' cf => cf = .run post l' ∧ v' = v) := by
  -- both checked kinds
  have key : ∀ (test : Instr) (x : Nat → Exit → Res X Val),
      (∀ k l, step X P (test :: k) l = .run k (l.set (.tmp c.tmp) (.b l.err.isSome))) →
      ∀ k c1, (do
        emit [test, .beq (.b true) (.var (.tmp c.tmp)) c.lbl, .bal (c.lbl + 1), .label c.lbl]
        unw n Γ (pending (·.kd) Γ.catches.length Γ.scopes)
        emit [.bal (errTarget Γ), .label (c.lbl + 1)])
        { lbl := c.lbl + 1 + 1, tmp := c.tmp + 1, seen := c.seen } = some (u, k, c1) →
      (k ++ post) <:+ P →
      Arr F F P (.run (k ++ post) l) c.tmp [] l none Γ
        (match e with | none => Res.ok v σ | some e => .exit (.err e) σ)
        (fun v' l' cf => cf = .run post l' ∧ v' = v) := by
    intro test x ht k c1 h hs
    obtain ⟨k2, h1, rfl⟩ := bind_emit.1 h
    obtain ⟨_, k3, c2, k4, hu, h2, rfl⟩ := bind_some.1 h1
    obtain ⟨rfl, rfl⟩ := emit_some.1 h2
    norm
    refine Arr.step ?_
    rw [ht]
    refine Arr.step ?_
    simp only [step, Opd.val, set_same, beq_bool]
    have fr : Fr c.tmp [] l (l.set (.tmp c.tmp) (.b l.err.isSome)) :=
      (Fr.refl _ _ _).set (fun k hk he => by cases he; omega) _
    have hR1 := hR.setT c.tmp (.b l.err.isSome)
    cases e with
    | none =>
      rw [hR.err] at *
      simp only [Option.isSome]
      rw [if_neg (by simp)]
      refine Arr.step ?_
      simp only [step]
      rw [goto_eq hU (k := post) (by suf hs)]
      refine Arr.step ?_
      simp only [step]
      exact Arr.ret hR1 fr ⟨rfl, rfl⟩
    | some er =>
      rw [hR.err] at *
      simp only [Option.isSome]
      rw [if_pos (by simp)]
      rw [goto_eq hU (k := k3 ++ (.bal (errTarget Γ) :: .label (c.lbl + 1) :: post)) (by suf hs)]
      refine Arr.step ?_
      simp only [step]
      have iu := I.u Γ _ _ _ k3 _ ct rt (some er) hu (hΓ.mono (Nat.le_succ _)) (hΓ.sc.pending _ _) _
        (by suf hs) σ _ hR1
      refine Arr.exitOf (p' := some er) (iu.mono (Nat.le_refl _) fr (Nat.le_succ _) (by simp)
        (fun _ _ _ h => h)) rfl rfl ?_
      intro l2 σ2 _ _ _
      exact ⟨⟨1, Steps.one _ _⟩, trivial⟩
  cases fl with
  | plain =>
    simp only [linFail] at h
    obtain ⟨_, rfl, rfl⟩ := pure_some.1 h
    exact Arr.ret (he rfl ▸ hR) (Fr.refl _ _ _) ⟨rfl, rfl⟩
  | errable =>
    simp only [linFail] at h
    have h := bind_freshL.1 (bind_freshL.1 (bind_freshT.1 h))
    have := key (.hasErr (.tmp c.tmp)) (fun _ _ => .ok v σ) (fun _ _ => rfl) k c' h hs
    rw [hp (by simp)]
    cases e <;> exact this
  | panics =>
    simp only [linFail] at h
    have h := bind_freshL.1 (bind_freshL.1 (bind_freshT.1 h))
    rw [hp (by simp)]
    by_cases hc : ct = true
    · have hne : (!Γ.catches.isEmpty) = true := by rw [← hΓ.ct]; exact hc
      have := key (.hasPanic (!Γ.catches.isEmpty) (.tmp c.tmp)) (fun _ _ => .ok v σ)
        (fun k l => by simp [step, hne]) k c' h hs
      subst hc
      cases e <;> exact this
    · have hcf : ct = false := by simpa using hc
      have hne : (!Γ.catches.isEmpty) = false := by rw [← hΓ.ct]; exact hcf
      subst hcf
      cases e with
      | some er =>
        obtain ⟨k2, h, rfl⟩ := bind_emit.1 h
        refine ⟨1, l, ?_, hR.w⟩
        have := Steps.one (X := X) (P := P) (.hasPanic (!Γ.catches.isEmpty) (.tmp c.tmp) ::
          .beq (.b true) (.var (.tmp c.tmp)) c.lbl :: .bal (c.lbl + 1) :: .label c.lbl :: (k2 ++ post)) l
        simpa [step, hne, hR.err] using this
      | none =>
        obtain ⟨k2, h1, rfl⟩ := bind_emit.1 h
        obtain ⟨_, k3, c2, k4, hu, h2, rfl⟩ := bind_some.1 h1
        obtain ⟨rfl, rfl⟩ := emit_some.1 h2
        norm
        refine Arr.step ?_
        simp only [step, hR.err, Option.isSome, Bool.false_and, Bool.false_eq_true, if_false]
        refine Arr.step ?_
        simp only [step, Opd.val, set_same, beq_bool]
        rw [if_neg (by simp)]
        refine Arr.step ?_
        simp only [step]
        rw [goto_eq hU (k := post) (by suf hs)]
        refine Arr.step ?_
        simp only [step]
        exact Arr.ret (hR.setT c.tmp _)
          ((Fr.refl _ _ _).set (fun k hk he => by cases he; omega) _) ⟨rfl, rfl⟩

/-! ## Expressions -/

theorem see_fresh {id : Nat} {j : Nat} {c c' : CSt} {subs k} (h : see id (.tmp j) c = some (subs, k, c'))
    (hf : id ∉ seenIds c) : subs = [j] ∧ k = [] ∧ c'.tmp = c.tmp ∧ c'.lbl = c.lbl ∧
      seenIds c' = seenIds c ++ [id] := by
  unfold see at h
  cases h
  refine ⟨?_, rfl, rfl, rfl, by simp [seenIds]⟩
  rw [List.filter_append, List.filter_eq_nil_iff.2]
  · simp
  · intro q hq
    simp only [decide_eq_true_eq]
    rintro rfl
    exact hf (List.mem_map.2 ⟨q, hq, rfl⟩)

theorem simLogic (hU : Uniq P) (I : Sim X F P pl A n) (isAnd : Bool) {Γ : Ctx} {tgt : Option Name}
    {a b : Expr} {c c' : CSt} {r} {k : List Instr} {ct rt : Bool} {p : Option Val}
    (h : (do
      let t ← target tgt
      let e ← freshL
      let x ← linE n Γ none a
      let x ← need x
      emit [.move t x, .beq (.b (!isAnd)) (.var t) e]
      let y ← linE n Γ none b
      let y ← need y
      emit [.move t y, .label e]
      pure (some (Opd.var t))) c = some (r, k, c'))
    (hΓ : CtxOk pl A Γ c.tmp ct rt) (hT : TgtOk tgt c.tmp) (ga : goodE pl A rt a = true)
    (gb : goodE pl A rt b = true) (hpa : p = none ∨ safeE pl a = true)
    (hpb : p = none ∨ safeE pl b = true) (hF : Fresh (idsE a ++ idsE b) c) (e : Expr) :
    ROk tgt e c c' r ∧ ∀ post, (k ++ post) <:+ P →
    ∀ (σ : St X) l, Rel p σ l →
    Arr F F P (.run (k ++ post) l) c.tmp tgt.toList l p Γ
      ((evalE X F a ct σ).test fun t σ1 =>
        if t = isAnd then (evalE X F b ct σ1).test fun u σ2 => .ok (.b u) σ2
        else .ok (.b (!isAnd)) σ1) (QE r post) := by
  obtain ⟨t, c1, T, h1⟩ := bind_target hT h
  have h2 := bind_freshL.1 h1
  obtain ⟨_, k1, c2, k2, ha, h3, rfl⟩ := bind_some.1 h2
  obtain ⟨oa, rfl, h4⟩ := bind_need.1 h3
  obtain ⟨k3, h5, rfl⟩ := bind_emit.1 h4
  obtain ⟨_, k4, c3, k5, hb, h6, rfl⟩ := bind_some.1 h5
  obtain ⟨ob, rfl, h7⟩ := bind_need.1 h6
  obtain ⟨k6, h8, rfl⟩ := bind_emit.1 h7
  obtain ⟨rfl, rfl, rfl⟩ := pure_some.1 h8
  have S1 := (stat (pl := pl) (A := A) n).e Γ none rt a hΓ.sc ga _ _ _ _ ha
  have S2 := (stat (pl := pl) (A := A) n).e Γ none rt b hΓ.sc gb _ _ _ _ hb
  refine ⟨T.shapeOf (Nat.le_trans S1.2.1 S2.2.1), fun post hs σ l hR => ?_⟩
  norm
  obtain ⟨j, rfl, hj⟩ := T.name
  have hF1 : Fresh (idsE a ++ idsE b) { lbl := c1.lbl + 1, tmp := c1.tmp, seen := c1.seen } :=
    hF.same T.seen
  have ia := (I.e Γ none a _ _ k1 c2 ct rt p ha (hΓ.mono T.le) TgtOk.none ga hpa hF1.left).2
  refine Arr.test (ia _ hs σ l hR) (Nat.le_refl _) (Fr.refl _ _ _) T.le (by simp) ?_
  rintro v σ1 l1 cf hr1 hR1 hf1 ⟨rfl, hv⟩
  have hv := hv oa rfl
  have fr1 := (fr0 (ex := tgt.toList) hf1 T.le).set T.own (.b v)
  refine Arr.step ?_
  simp only [step]
  refine Arr.step ?_
  simp only [step, val_var, set_same]
  rw [hv, beq_bool]
  by_cases hc : v = isAnd
  · rw [if_neg (by subst hc; cases v <;> simp), if_pos hc]
    have ib := (I.e Γ none b _ _ k4 _ ct rt p hb (hΓ.mono (Nat.le_trans T.le S1.2.1)) TgtOk.none gb
      hpb (hF1.right S1.2.2.2)).2
    refine Arr.test (ib _ (by suf hs) σ1 _ (hR1.setT j _)) (Nat.le_refl _) fr1
      (Nat.le_trans T.le S1.2.1) (by simp) ?_
    rintro w σ2 l2 cf hr2 hR2 hf2 ⟨rfl, hw⟩
    have hw := hw ob rfl
    refine Arr.step ?_
    simp only [step]
    refine Arr.step ?_
    simp only [step]
    refine Arr.ret (hR2.setT j _) ((fr1.trans hf2 (Nat.le_trans T.le S1.2.1) (by simp)).set T.own _)
      ⟨rfl, fun o ho => ?_⟩
    cases ho
    show (l2.set _ _).env _ = _
    rw [set_same, hw]
  · rw [if_pos (by cases v <;> cases isAnd <;> simp_all), if_neg hc]
    rw [goto_eq hU (k := post) (by suf hs)]
    refine Arr.step ?_
    simp only [step]
    refine Arr.ret (hR1.setT j _) fr1 ⟨rfl, fun o ho => ?_⟩
    cases ho
    show (l1.set _ _).env _ = _
    rw [set_same]
    cases v <;> cases isAnd <;> simp_all

/-- After a `match`: label, result. -/
theorem afterBlock (hU : Uniq P) {Γ : Ctx} {tg tgt : Option Name} {le : Nat} {post : List Instr}
    {N : Nat} {l0 : LSt X} {p : Option Val} {s : Cfg X} {res : Res X Val} {B N' : Nat} {l1 : LSt X}
    (h : Arr F B P s N' tg.toList l1 p Γ res
      (fun v l' cf => cf = goto P le l' ∧ ∀ t, tg = some t → l'.env t = v))
    (hs : (.label le :: post) <:+ P) (fr : Fr N tgt.toList l0 l1) (hN : N ≤ N')
    (hex : ∀ k, k < N → .tmp k ∈ tg.toList → .tmp k ∈ tgt.toList) :
    Arr F B P s N tgt.toList l0 p Γ res (QE (tg.map Opd.var) post) := by
  cases res with
  | ok a σ =>
    obtain ⟨m, c, l, h1, h2, h3, rfl, h5⟩ := h
    refine Arr.steps h1 ?_
    rw [goto_eq hU hs]
    refine Arr.step ?_
    simp only [step]
    refine Arr.ret h2 (fr.trans h3 hN hex) ⟨rfl, fun o ho => ?_⟩
    cases tg with
    | none => cases ho
    | some t => cases ho; exact h5 t rfl
  | exit x σ =>
    have h : ExitArr F B P s N' tg.toList l1 p Γ x σ := h
    exact ExitArr.mono h (Nat.le_refl _) fr hN hex (fun _ => rfl) (fun _ _ => rfl) (fun _ _ h => h)

theorem simF' (hU : Uniq P) (ih : ∀ m, m ≤ n → Sim X F P pl A m) {Γ : Ctx} {fl : Fail} {c : CSt} {u}
    {k : List Instr} {c' : CSt} {ct rt : Bool} {p e : Option Val}
    (h : linFail n Γ fl c = some (u, k, c')) (hΓ : CtxOk pl A Γ c.tmp ct rt)
    (he : fl = .plain → e = p) (hp : fl ≠ .plain → p = none) {post : List Instr}
    (hs : (k ++ post) <:+ P) {σ : St X} {l : LSt X} (hR : Rel e σ l) (v : Val) :
    Arr F F P (.run (k ++ post) l) c.tmp [] l p Γ (failRes fl ct v e σ)
      (fun v' l' cf => cf = .run post l' ∧ v' = v) := by
  cases n with
  | zero => simp [linFail, fail] at h
  | succ m => exact simF hU (ih m (Nat.le_succ m)) h hΓ he hp hs hR v

/-- What the callee does, seen from the source and from LIR. -/
theorem call_cases (hpl : ∀ f, pl f = true → Insensitive X f) {f : Nat} {fl : Fail} {ct : Bool}
    {vs : List Val} {σ : St X} {p : Option Val} (hp : p = none ∨ fl = .plain ∧ pl f = true) :
    ∃ v e w, X.call f vs p σ.w = (v, e, w) ∧
      (doCall X f fl ct vs σ = .exit .stuck σ ∨
        (doCall X f fl ct vs σ = failRes fl ct v e { σ with w := w } ∧ (fl = .plain → e = p))) := by
  rcases hp with rfl | ⟨rfl, hf⟩
  · unfold doCall
    rcases hc : X.call f vs none σ.w with ⟨v, e, w⟩
    refine ⟨v, e, w, rfl, ?_⟩
    cases e with
    | none =>
      right
      cases fl <;> exact ⟨rfl, fun _ => rfl⟩
    | some e =>
      cases fl with
      | plain => exact .inl rfl
      | errable => exact .inr ⟨rfl, by simp⟩
      | panics => exact .inr ⟨rfl, by simp⟩
  · have h := hpl f hf vs σ.w
    unfold doCall
    rcases hc : X.call f vs none σ.w with ⟨v, e, w⟩
    rw [hc] at h
    obtain ⟨rfl, h2⟩ := h
    cases p with
    | none => exact ⟨v, none, w, hc, .inr ⟨rfl, fun _ => rfl⟩⟩
    | some e0 =>
      exact ⟨v, some e0, w, h2 e0, .inr ⟨rfl, fun _ => rfl⟩⟩

theorem bind_id {α} (r : Res X α) : r.bind (fun v σ => .ok v σ) = r := by cases r <;> rfl

/-- The default value put in the target before a handler runs. -/
def dfltMove : Option Name → Option Val → List Instr
  | some t, some d => [.move t (.imm d)]
  | _, _ => []

/-- The handler of a `catch`: the error is taken off, then the block runs. -/
theorem simHandler (hU : Uniq P) (I : Sim X F P pl A n) {Γ : Ctx} {lc le : Nat} {tg : Option Name}
    {body : Body} {x : Nat} {dflt : Option Val} {c c' : CSt} {u} {k : List Instr} {ct rt : Bool}
    (h : linB n (Γ.block le tg) body c = some (u, k, c')) (hΓ : CtxOk pl A Γ c.tmp ct rt)
    (hT : TgtOk tg c.tmp) (g : goodB pl A true body = true)
    (gc : tg = none ∨ dflt = none ∨ calmB body = true) (hF : Fresh (idsB body) c)
    {pre post : List Instr} (hpre : pre = dfltMove tg dflt)
    (hs : (.label lc :: (pre ++ .removeErr (.src x) :: (k ++ .label le :: post))) <:+ P)
    {σ : St X} {l l0 : LSt X} {er : Val} (hR : Rel (some er) σ l) {N : Nat} (hN : N ≤ c.tmp)
    (fr : Fr N tg.toList l0 l) :
    Arr F F P (goto P lc l) N tg.toList l0 none Γ
      (blockValue tg.isNone dflt (execB X F body ct [] (σ.set x er)))
      (QE (tg.map Opd.var) post) := by
  rw [goto_eq hU hs]
  refine Arr.step ?_
  simp only [step]
  -- the default value
  have hdef : ∃ l1, Rel (some er) σ l1 ∧ Fr N tg.toList l0 l1 ∧
      (∀ t d, tg = some t → dflt = some d → l1.env t = d) ∧
      ∃ m, Steps X P m (.run (pre ++ .removeErr (.src x) :: (k ++ .label le :: post)) l)
        (.run (.removeErr (.src x) :: (k ++ .label le :: post)) l1) := by
    subst hpre
    cases tg with
    | none => exact ⟨l, hR, fr, by simp, 0, Steps.refl _⟩
    | some t =>
      cases dflt with
      | none => exact ⟨l, hR, fr, by simp, 0, Steps.refl _⟩
      | some d =>
        obtain ⟨j, hj, rfl⟩ := hT _ rfl
        refine ⟨l.set (.tmp j) d, hR.setT j d, fr.set (fun k _ he => by simp [he]) _, ?_, 1, Steps.one _ _⟩
        rintro t d' ht hd
        cases ht
        cases hd
        exact set_same _ _ _
  obtain ⟨l1, hR1, fr1, hd, m, hst⟩ := hdef
  refine Arr.steps hst ?_
  refine Arr.step ?_
  simp only [step, hR1.err]
  have hR2 : Rel (X := X) none σ { l1 with err := none } := ⟨hR1.vars, hR1.w, rfl, hR1.rv⟩
  have hR3 := hR2.setS x er
  have fr3 : Fr N tg.toList l0 ({ l1 with err := none }.set (.src x) er) := by
    refine Fr.set (t := .src x) (l := { l1 with err := none }) ?_ (by simp) er
    exact fr1
  have ib := I.b (Γ.block le tg) body c u k c' ct true none tg.toList h (hΓ.block hT le true) g
    (.inr (by intro t ht; cases tg <;> simp_all [Linear.hd])) (.inl rfl) hF _ (by suf hs) _ _ hR3
  have sfx : (.label le :: post) <:+ P := by suf hs
  have ib2 : Arr F F P (.run (k ++ .label le :: post) ({ l1 with err := none }.set (.src x) er)) N
      tg.toList l0 none (Γ.block le tg) (execB X F body ct [] (σ.set x er))
      (QS (.label le :: post) (calmB body) c.tmp ({ l1 with err := none }.set (.src x) er)) :=
    ib.mono (Nat.le_refl _) fr3 hN (fun _ _ h => h) (fun _ _ _ h => h)
  refine Arr.block (fun s hs => (hΓ.dep s hs).2.2.1) ib2 ?_ ?_
  · intro v σ2 l2 hR4 hf4 hv
    rw [goto_eq hU sfx]
    refine Arr.step ?_
    simp only [step]
    refine Arr.ret hR4 hf4 ⟨rfl, fun o ho => ?_⟩
    cases tg with
    | none => cases ho
    | some t => cases ho; exact hv t rfl
  · rintro σ2 l2 cf hR4 hf4 ⟨rfl, hcalm⟩
    refine Arr.step ?_
    simp only [step, blockValue]
    cases tg with
    | none => exact Arr.ret hR4 hf4 ⟨rfl, by simp⟩
    | some t =>
      simp only [Option.isNone, Bool.false_eq_true, if_false]
      cases dflt with
      | none => trivial
      | some d =>
        obtain ⟨j, hj, rfl⟩ := hT _ rfl
        have hc : calmB body = true := by simpa using gc
        refine Arr.ret hR4 hf4 ⟨rfl, fun o ho => ?_⟩
        cases ho
        show l2.env (.tmp j) = d
        rw [hcalm hc j hj (by simp), set_ne _ _ (by simp)]
        exact hd _ _ rfl rfl

theorem TF.relabel {tgt : Option Name} {t : Name} {c0 c c1 : CSt} (T : TF tgt t c0 c1)
    (h1 : c0.tmp = c.tmp) (h2 : c0.seen = c.seen) : TF tgt t c c1 :=
  ⟨T.name, h1 ▸ T.own, h1 ▸ T.le, h2 ▸ T.seen, h1 ▸ T.shape⟩

/-- A `catch` from the guarded expression on. -/
theorem simCatch (hU : Uniq P) (hpl : ∀ f, pl f = true → Insensitive X f) (I : Sim X F P pl A n)
    {Γ : Ctx} {lc le : Nat} {tg tgt : Option Name} {e : Expr} {body : Body} {x : Nat}
    {dflt : Option Val} {c c1 c2 c3 : CSt} {r u} {k1 k2 : List Instr} {ct rt : Bool} {p : Option Val}
    (he : linE n { Γ with catches := lc :: Γ.catches } tg e c1 = some (r, k1, c2))
    (hb : linB n (Γ.block le tg) body c2 = some (u, k2, c3)) (hΓ : CtxOk pl A Γ c1.tmp ct rt)
    (hT : TgtOk tg c1.tmp) (ge : goodE pl A rt e = true) (gb : goodB pl A true body = true)
    (gc : tg = none ∨ dflt = none ∨ calmB body = true)
    (hp : p = none ∨ safeE pl e = true)
    (hF : Fresh (idsE e ++ idsB body) c1)
    (hN : c.tmp ≤ c1.tmp) (hex : ∀ k, k < c.tmp → .tmp k ∈ tg.toList → .tmp k ∈ tgt.toList)
    {pre post : List Instr} (hpre : pre = dfltMove tg dflt)
    (hs : (k1 ++ .bal le :: .label lc :: (pre ++ .removeErr (.src x) :: (k2 ++ .label le :: post))) <:+ P)
    {σ : St X} {l : LSt X} (hR : Rel p σ l) :
    Arr F F P (.run (k1 ++ .bal le :: .label lc :: (pre ++ .removeErr (.src x) :: (k2 ++ .label le :: post))) l)
      c.tmp tgt.toList l p Γ
      (match evalE X F e true σ with
        | .exit (.err er) σ1 => blockValue tg.isNone dflt (execB X F body ct [] (σ1.set x er))
        | r => r)
      (QE (tg.map Opd.var) post) := by
  have S1 := (stat (pl := pl) (A := A) n).e { Γ with catches := lc :: Γ.catches } tg rt e hΓ.sc ge
    _ _ _ _ he
  obtain ⟨ro, ie⟩ := I.e { Γ with catches := lc :: Γ.catches } tg e c1 r k1 c2 true rt p he
    (hΓ.catch lc) hT ge hp hF.left
  have ie := ie _ hs σ l hR
  have sfx : (.label le :: post) <:+ P := by suf hs
  cases hr : evalE X F e true σ with
  | ok v σ1 =>
    rw [hr] at ie
    obtain ⟨m, cf, l1, e1, hR1, hf1, rfl, hv⟩ := ie
    refine Arr.steps e1 (Arr.step ?_)
    simp only [step]
    rw [goto_eq hU sfx]
    refine Arr.step ?_
    simp only [step]
    refine Arr.ret hR1 (hf1.weak hN hex) ⟨rfl, fun o ho => ?_⟩
    cases tg with
    | none => cases ho
    | some t =>
      cases ho
      exact hv _ (ro.1 t rfl)
  | exit y σ1 =>
    rw [hr] at ie
    have other : (∀ er, y ≠ .err er) →
        Arr F F P (.run (k1 ++ .bal le :: .label lc :: (pre ++ .removeErr (.src x) :: (k2 ++ .label le :: post))) l)
      c.tmp tgt.toList l p Γ (Res.exit y σ1) (QE (tg.map Opd.var) post) := by
      intro hy
      have := Arr.catch (Γ := Γ) ie (fun v σ' h => by cases h; exact hy _ rfl)
      have this : ExitArr F F P _ c1.tmp tg.toList l p Γ y σ1 := this
      exact ExitArr.mono this (Nat.le_refl _) (Fr.refl _ _ _) hN hex (fun _ => rfl) (fun _ _ => rfl)
        (fun _ _ h => h)
    cases y with
    | err er =>
      have hpn : p = none := by
        rcases hp with h | h
        · exact h
        · exact absurd hr (quietE hpl e h true σ).noErr
      subst hpn
      obtain ⟨m, l1, e1, hR1, hf1⟩ := Arr.caught (fun s hs => (hΓ.dep s hs).2.2.2) ie
      refine Arr.steps e1 ?_
      have := simHandler hU I (lc := lc) (x := x) (dflt := dflt) hb (hΓ.mono S1.2.1)
        (fun t ht => by
          obtain ⟨j, hj, e⟩ := hT t ht
          exact ⟨j, Nat.lt_of_lt_of_le hj S1.2.1, e⟩) gb gc (hF.right S1.2.2.2) hpre
        (by suf hs) hR1 (Nat.le_trans hN S1.2.1) (hf1.weak hN (fun _ _ h => h))
      exact this.mono (Nat.le_refl _) (Fr.refl _ _ _) (Nat.le_refl _) hex (fun _ _ _ h => h)
    | _ => exact other (by simp)

end Nature.Linear
