import Verif.Linear.Spec

/-! # Facts about the interpreter: deferred blocks are quiet, and what is not assigned is kept -/
namespace Nature.Linear.Spec

open Nature.Linear

variable {X : Ext} {F : Nat} {pl : Nat → Bool}

/-- The outcome of something that does not jump. -/
def Quiet {α} : Res X α → Prop
  | .ok _ _ => True
  | .exit x _ => x = .timeout ∨ x = .stuck

theorem Quiet.final {α} {x : Exit} {σ : St X} (h : Quiet (α := α) (.exit x σ)) : x.final = true := by
  rcases h with h | h <;> subst h <;> rfl

theorem Quiet.bind {α β} {r : Res X α} {f : α → St X → Res X β} (h : Quiet r)
    (hf : ∀ a σ, Quiet (f a σ)) : Quiet (r.bind f) := by
  cases r with
  | ok a σ => exact hf a σ
  | exit x σ => exact h

theorem Quiet.test {α} {r : Res X Val} {f : Bool → St X → Res X α} (h : Quiet r)
    (hf : ∀ a σ, Quiet (f a σ)) : Quiet (r.test f) := by
  refine h.bind fun v σ => ?_
  cases v with
  | b t => exact hf t σ
  | _ => exact Or.inr rfl

theorem Quiet.noJump {α} {r : Res X α} (h : Quiet r) : Quiet r.noJump := by
  cases r with
  | ok a σ => exact h
  | exit x σ => rcases h with h | h <;> subst h <;> simp [Res.noJump, Quiet]

theorem Quiet.leave {D : List (St X → Res X Unit)} {r : Res X Unit} (h : Quiet r)
    (hD : ∀ d ∈ D, ∀ σ, Quiet (d σ)) : Quiet (leave D r) := by
  induction D generalizing r with
  | nil => exact h
  | cons d D ih =>
    cases r with
    | ok a σ =>
      exact ih (hD d (by simp) σ) (fun d' hd' => hD d' (List.mem_cons_of_mem _ hd'))
    | exit x σ =>
      simp only [Spec.leave, h.final, if_true]
      exact h

theorem Quiet.blockValue {void : Bool} {dflt : Option Val} {r : Res X Unit} (h : Quiet r) :
    Quiet (blockValue void dflt r) := by
  cases r with
  | ok a σ =>
    simp only [Spec.blockValue]
    split
    · trivial
    · split
      · trivial
      · exact Or.inr rfl
  | exit x σ => rcases h with h | h <;> subst h <;> simp [Spec.blockValue, Quiet]

theorem Quiet.loop {cond : St X → Res X Val} {body upd : St X → Res X Unit}
    (hc : ∀ σ, Quiet (cond σ)) (hb : ∀ σ, Quiet (body σ)) (hu : ∀ σ, Quiet (upd σ)) (n : Nat)
    (σ : St X) : Quiet (loop cond body upd n σ) := by
  induction n generalizing σ with
  | zero => exact Or.inl rfl
  | succ n ih =>
    refine (hc σ).noJump.test fun t σ1 => ?_
    split
    · have h1 := hb σ1
      cases hr : body σ1 with
      | ok a σ2 => exact (hu σ2).noJump.bind fun _ σ3 => ih σ3
      | exit x σ2 =>
        rw [hr] at h1
        rcases h1 with h1 | h1 <;> subst h1 <;> simp [Quiet]
    · trivial

theorem Quiet.doCall {f : Nat} (h : Insensitive X f) (ct : Bool) (args : List Val) (σ : St X) :
    Quiet (doCall X f .plain ct args σ) := by
  unfold Spec.doCall
  have := (h args σ.w).1
  split
  · trivial
  · rename_i he
    rw [he] at this
    simp at this

theorem Quiet.noErr {α} {r : Res X α} (h : Quiet r) {e : Val} {σ : St X} : r ≠ .exit (.err e) σ := by
  intro hr
  subst hr
  rcases h with h | h <;> simp at h

theorem execB_cons (s : Stmt) (hnd : ∀ d, s ≠ .defer d) (rest : Body) (ct : Bool)
    (D : List (St X → Res X Unit)) (σ : St X) :
    execB X F (.cons s rest) ct D σ =
      (match execS X F s ct σ with
        | .ok _ σ1 => execB X F rest ct D σ1
        | .exit x σ1 => leave D (.exit x σ1)) := by
  cases s <;> first | (exact absurd rfl (hnd _)) | (simp only [execB]; rfl)

mutual
theorem quietE (hpl : ∀ f, pl f = true → Insensitive X f) :
    ∀ (e : Expr), safeE pl e = true → ∀ ct σ, Quiet (evalE X F e ct σ)
  | .lit v, _, ct, σ => trivial
  | .var (.src x), _, ct, σ => trivial
  | .var (.tmp x), _, ct, σ => Or.inr rfl
  | .arith o l r, h, ct, σ => by
    simp only [safeE, Bool.and_eq_true] at h
    simp only [evalE]
    exact (quietE hpl l h.1 ct σ).bind fun v σ1 => (quietE hpl r h.2 ct σ1).bind fun _ _ => trivial
  | .cmp k c l r, h, ct, σ => by
    simp only [safeE, Bool.and_eq_true] at h
    simp only [evalE]
    exact (quietE hpl l h.1 ct σ).bind fun v σ1 => (quietE hpl r h.2 ct σ1).bind fun _ _ => trivial
  | .and l r, h, ct, σ => by
    simp only [safeE, Bool.and_eq_true] at h
    simp only [evalE]
    refine (quietE hpl l h.1 ct σ).test fun v σ1 => ?_
    split
    · exact (quietE hpl r h.2 ct σ1).test fun _ _ => trivial
    · trivial
  | .or l r, h, ct, σ => by
    simp only [safeE, Bool.and_eq_true] at h
    simp only [evalE]
    refine (quietE hpl l h.1 ct σ).test fun v σ1 => ?_
    split
    · trivial
    · exact (quietE hpl r h.2 ct σ1).test fun _ _ => trivial
  | .tern c l r, h, ct, σ => by
    simp only [safeE, Bool.and_eq_true] at h
    simp only [evalE]
    refine (quietE hpl c h.1.1 ct σ).test fun v σ1 => ?_
    split
    · exact quietE hpl l h.1.2 ct σ1
    · exact quietE hpl r h.2 ct σ1
  | .call f fl void args, h, ct, σ => by
    simp only [safeE, Bool.and_eq_true, decide_eq_true_eq] at h
    obtain ⟨⟨hf, hp⟩, ha⟩ := h
    subst hf
    simp only [evalE]
    exact (quietA hpl args ha ct σ).bind fun vs σ1 => Quiet.doCall (hpl f hp) ct vs σ1
  | .mtch void cs, h, ct, σ => by
    simp only [safeE] at h
    simp only [evalE]
    exact quietC hpl cs h none void ct σ
  | .mtchS _ _ _ _ _, h, ct, σ => by simp [safeE] at h
  | .ctch void d e x b, h, ct, σ => by
    simp only [safeE, Bool.and_eq_true] at h
    have h1 := quietE hpl e h.1 true σ
    simp only [evalE]
    split
    · exact absurd (by assumption) h1.noErr
    · exact h1
theorem quietA (hpl : ∀ f, pl f = true → Insensitive X f) :
    ∀ (a : Args), safeA pl a = true → ∀ ct σ, Quiet (evalA X F a ct σ)
  | .nil, _, ct, σ => trivial
  | .cons e rest, h, ct, σ => by
    simp only [safeA, Bool.and_eq_true] at h
    simp only [evalA]
    exact (quietE hpl e h.1 ct σ).bind fun v σ1 => (quietA hpl rest h.2 ct σ1).bind fun _ _ => trivial
theorem quietK (hpl : ∀ f, pl f = true → Insensitive X f) :
    ∀ (a : Args), safeA pl a = true → ∀ sub ct σ, Quiet (anyHolds X F a sub ct σ)
  | .nil, _, sub, ct, σ => trivial
  | .cons e rest, h, sub, ct, σ => by
    simp only [safeA, Bool.and_eq_true] at h
    simp only [anyHolds]
    refine (quietE hpl e h.1 ct σ).bind fun v σ1 => ?_
    split
    · split
      · trivial
      · exact quietK hpl rest h.2 _ ct σ1
    · split
      · trivial
      · exact quietK hpl rest h.2 _ ct σ1
    · exact Or.inr rfl
theorem quietC (hpl : ∀ f, pl f = true → Insensitive X f) :
    ∀ (cs : Cases), safeC pl cs = true → ∀ sub void ct σ, Quiet (evalC X F cs sub void ct σ)
  | .last true ks b, h, sub, void, ct, σ => by
    simp only [safeC, Bool.and_eq_true] at h
    simp only [evalC]
    exact (quietB hpl b h.2 ct [] σ (by simp)).blockValue
  | .last false ks b, h, sub, void, ct, σ => by
    simp only [safeC, Bool.and_eq_true] at h
    simp only [evalC]
    refine (quietK hpl ks h.1 sub ct σ).bind fun t σ1 => ?_
    split
    · exact (quietB hpl b h.2 ct [] σ1 (by simp)).blockValue
    · exact Or.inr rfl
  | .cons ks b rest, h, sub, void, ct, σ => by
    simp only [safeC, Bool.and_eq_true] at h
    simp only [evalC]
    refine (quietK hpl ks h.1.1 sub ct σ).bind fun t σ1 => ?_
    split
    · exact (quietB hpl b h.1.2 ct [] σ1 (by simp)).blockValue
    · exact quietC hpl rest h.2 sub void ct σ1
theorem quietS (hpl : ∀ f, pl f = true → Insensitive X f) :
    ∀ (s : Stmt), safeS pl s = true → ∀ ct σ, Quiet (execS X F s ct σ)
  | .expr e, h, ct, σ => by
    simp only [safeS] at h
    simp only [execS]
    exact (quietE hpl e h ct σ).bind fun _ _ => trivial
  | .set x e, h, ct, σ => by
    simp only [safeS] at h
    simp only [execS]
    exact (quietE hpl e h ct σ).bind fun _ _ => trivial
  | .ite c t e, h, ct, σ => by
    simp only [safeS, Bool.and_eq_true] at h
    simp only [execS]
    refine (quietE hpl c h.1.1 ct σ).test fun v σ1 => ?_
    split
    · exact quietB hpl t h.1.2 ct [] σ1 (by simp)
    · exact quietB hpl e h.2 ct [] σ1 (by simp)
  | .forC c b, h, ct, σ => by
    simp only [safeS, Bool.and_eq_true] at h
    simp only [execS]
    exact Quiet.loop (fun σ => quietE hpl c h.1 ct σ) (fun σ => quietB hpl b h.2 ct [] σ (by simp))
      (by intro σ; trivial) F σ
  | .forT i c u b, h, ct, σ => by
    simp only [safeS, Bool.and_eq_true] at h
    simp only [execS]
    refine (quietS hpl i h.1.1.1 ct σ).noJump.bind fun _ σ1 => ?_
    exact Quiet.loop (fun σ => quietE hpl c h.1.1.2 ct σ)
      (fun σ => quietB hpl b h.2 ct [] σ (by simp)) (fun σ => quietS hpl u h.1.2 ct σ) F σ1
  | .brk, h, ct, σ => by simp [safeS] at h
  | .cont, h, ct, σ => by simp [safeS] at h
  | .retV, h, ct, σ => by simp [safeS] at h
  | .retE _, h, ct, σ => by simp [safeS] at h
  | .ret _, h, ct, σ => by simp [safeS] at h
  | .throw _, h, ct, σ => by simp [safeS] at h
  | .defer _, h, ct, σ => Or.inr rfl
  | .try b x h', h, ct, σ => by
    simp only [safeS, Bool.and_eq_true] at h
    have h1 := quietB hpl b h.1 true [] σ (by simp)
    simp only [execS]
    split
    · exact absurd (by assumption) h1.noErr
    · exact h1
theorem quietB (hpl : ∀ f, pl f = true → Insensitive X f) :
    ∀ (b : Body), safeB pl b = true → ∀ ct D σ, (∀ d ∈ D, ∀ σ, Quiet (d σ)) →
      Quiet (execB X F b ct D σ)
  | .nil, _, ct, D, σ, hD => by
    simp only [execB]
    exact Quiet.leave trivial hD
  | .cons s rest, h, ct, D, σ, hD => by
    simp only [safeB, Bool.and_eq_true] at h
    have hs := quietS hpl s h.1 ct σ
    have key : ∀ (s : Stmt), (∀ d, s ≠ .defer d) → Quiet (execS X F s ct σ) →
        Quiet (execB X F (.cons s rest) ct D σ) := by
      intro s hnd hs
      rw [execB_cons s hnd]
      cases hr : execS X F s ct σ with
      | ok a σ1 => exact quietB hpl rest h.2 ct D σ1 hD
      | exit x σ1 => rw [hr] at hs; exact hs.leave hD
    cases s with
    | defer d =>
      simp only [execB]
      have hd : safeB pl d = true := by simpa only [safeS] using h.1
      refine quietB hpl rest h.2 ct _ σ ?_
      intro d' hd'
      rcases List.mem_cons.1 hd' with h' | h'
      · subst h'
        intro σ'
        exact quietB hpl d hd ct [] σ' (by simp)
      · exact hD d' h'
    | _ => exact key _ (by simp) hs
end

/-! ## What is not assigned is kept -/

def Res.st {α} : Res X α → St X
  | .ok _ σ => σ
  | .exit _ σ => σ

theorem Res.st_bind {α β} {r : Res X α} {f : α → St X → Res X β} {x : Nat} {v : Val}
    (h : r.st.vars x = v) (hf : ∀ a σ, σ.vars x = v → (f a σ).st.vars x = v) :
    (r.bind f).st.vars x = v := by
  cases r with
  | ok a σ => exact hf a σ h
  | exit y σ => exact h

theorem Res.st_test {α} {r : Res X Val} {f : Bool → St X → Res X α} {x : Nat} {v : Val}
    (h : r.st.vars x = v) (hf : ∀ a σ, σ.vars x = v → (f a σ).st.vars x = v) :
    (r.test f).st.vars x = v := by
  refine Res.st_bind h fun u σ hu => ?_
  cases u with
  | b t => exact hf t σ hu
  | _ => exact hu

theorem Res.st_noJump {α} {r : Res X α} : r.noJump.st = r.st := by
  cases r with
  | ok a σ => rfl
  | exit x σ => cases x <;> rfl

theorem st_leave {D : List (St X → Res X Unit)} {r : Res X Unit} {x : Nat} {v : Val}
    (h : r.st.vars x = v) (hD : ∀ d ∈ D, ∀ σ, σ.vars x = v → (d σ).st.vars x = v) :
    (leave D r).st.vars x = v := by
  induction D generalizing r with
  | nil => exact h
  | cons d D ih =>
    have ih' := fun {r} h => ih (r := r) h (fun d' hd' => hD d' (List.mem_cons_of_mem _ hd'))
    cases r with
    | ok a σ => exact ih' (hD d (by simp) σ h)
    | exit y σ =>
      simp only [leave]
      split
      · exact h
      · have := hD d (by simp) σ h
        split
        · rename_i he; rw [he] at this; exact ih' this
        · rename_i he; rw [he] at this; exact ih' this

theorem st_blockValue {void : Bool} {dflt : Option Val} {r : Res X Unit} :
    (blockValue void dflt r).st = r.st := by
  cases r with
  | ok a σ =>
    simp only [blockValue]
    split
    · rfl
    · split <;> rfl
  | exit x σ => cases x <;> rfl

theorem st_loop {cond : St X → Res X Val} {body upd : St X → Res X Unit} {x : Nat} {v : Val}
    (hc : ∀ σ, σ.vars x = v → (cond σ).st.vars x = v)
    (hb : ∀ σ, σ.vars x = v → (body σ).st.vars x = v)
    (hu : ∀ σ, σ.vars x = v → (upd σ).st.vars x = v) (n : Nat)
    (σ : St X) (h : σ.vars x = v) : (loop cond body upd n σ).st.vars x = v := by
  induction n generalizing σ with
  | zero => exact h
  | succ n ih =>
    refine Res.st_test (by rw [Res.st_noJump]; exact hc σ h) fun t σ1 h1 => ?_
    have step : ∀ σ2 : St X, σ2.vars x = v →
        (((upd σ2).noJump).bind fun _ σ3 => loop cond body upd n σ3).st.vars x = v :=
      fun σ2 h2 => Res.st_bind (by rw [Res.st_noJump]; exact hu σ2 h2) fun _ σ3 h3 => ih σ3 h3
    split
    · have hb1 := hb σ1 h1
      cases hr : body σ1 with
      | ok a σ2 => rw [hr] at hb1; exact step σ2 hb1
      | exit y σ2 =>
        rw [hr] at hb1
        cases y <;> first | exact step σ2 hb1 | exact hb1
    · exact h1

theorem st_doCall {f : Nat} {fl : Fail} {ct : Bool} {args : List Val} {σ : St X} {x : Nat} :
    (doCall X f fl ct args σ).st.vars x = σ.vars x := by
  unfold doCall
  split
  · rfl
  · cases fl <;> rfl

theorem set_other {σ : St X} {x y : Nat} {v : Val} (h : x ≠ y) : (σ.set y v).vars x = σ.vars x := by
  simp [St.set, h]

mutual
theorem keepE : ∀ (e : Expr) {x : Nat} {v : Val}, x ∉ asgE e → ∀ ct σ, σ.vars x = v →
    (evalE X F e ct σ).st.vars x = v
  | .lit v, x, v', _, ct, σ, h => h
  | .var (.src x), _, _, _, ct, σ, h => h
  | .var (.tmp x), _, _, _, ct, σ, h => h
  | .arith o l r, x, v, hx, ct, σ, h => by
    simp only [asgE, List.mem_append, not_or] at hx
    simp only [evalE]
    exact Res.st_bind (keepE l hx.1 ct σ h) fun _ σ1 h1 =>
      Res.st_bind (keepE r hx.2 ct σ1 h1) fun _ _ h2 => h2
  | .cmp k c l r, x, v, hx, ct, σ, h => by
    simp only [asgE, List.mem_append, not_or] at hx
    simp only [evalE]
    exact Res.st_bind (keepE l hx.1 ct σ h) fun _ σ1 h1 =>
      Res.st_bind (keepE r hx.2 ct σ1 h1) fun _ _ h2 => h2
  | .and l r, x, v, hx, ct, σ, h => by
    simp only [asgE, List.mem_append, not_or] at hx
    simp only [evalE]
    refine Res.st_test (keepE l hx.1 ct σ h) fun _ σ1 h1 => ?_
    split
    · exact Res.st_test (keepE r hx.2 ct σ1 h1) fun _ _ h2 => h2
    · exact h1
  | .or l r, x, v, hx, ct, σ, h => by
    simp only [asgE, List.mem_append, not_or] at hx
    simp only [evalE]
    refine Res.st_test (keepE l hx.1 ct σ h) fun _ σ1 h1 => ?_
    split
    · exact h1
    · exact Res.st_test (keepE r hx.2 ct σ1 h1) fun _ _ h2 => h2
  | .tern c l r, x, v, hx, ct, σ, h => by
    simp only [asgE, List.mem_append, not_or] at hx
    simp only [evalE]
    refine Res.st_test (keepE c hx.1.1 ct σ h) fun _ σ1 h1 => ?_
    split
    · exact keepE l hx.1.2 ct σ1 h1
    · exact keepE r hx.2 ct σ1 h1
  | .call f fl void args, x, v, hx, ct, σ, h => by
    simp only [asgE] at hx
    simp only [evalE]
    exact Res.st_bind (keepA args hx ct σ h) fun vs σ1 h1 => by rw [st_doCall]; exact h1
  | .mtch void cs, x, v, hx, ct, σ, h => by
    simp only [asgE] at hx
    simp only [evalE]
    exact keepC cs hx none void ct σ h
  | .mtchS i void k s cs, x, v, hx, ct, σ, h => by
    simp only [asgE, List.mem_append, not_or] at hx
    simp only [evalE]
    exact Res.st_bind (keepE s hx.1 ct σ h) fun u σ1 h1 => keepC cs hx.2 _ void ct σ1 h1
  | .ctch void d e y b, x, v, hx, ct, σ, h => by
    simp only [asgE, List.mem_append, List.mem_cons, not_or] at hx
    have h1 := keepE e hx.1 true σ h
    simp only [evalE]
    split
    · rename_i er σ1 he
      rw [he] at h1
      rw [st_blockValue]
      exact keepB b hx.2.2 ct [] _ (by rw [set_other hx.2.1]; exact h1) (by simp)
    · exact h1
theorem keepA : ∀ (a : Args) {x : Nat} {v : Val}, x ∉ asgA a → ∀ ct σ, σ.vars x = v →
    (evalA X F a ct σ).st.vars x = v
  | .nil, x, v, _, ct, σ, h => h
  | .cons e rest, x, v, hx, ct, σ, h => by
    simp only [asgA, List.mem_append, not_or] at hx
    simp only [evalA]
    exact Res.st_bind (keepE e hx.1 ct σ h) fun _ σ1 h1 =>
      Res.st_bind (keepA rest hx.2 ct σ1 h1) fun _ _ h2 => h2
theorem keepK : ∀ (a : Args) {x : Nat} {v : Val}, x ∉ asgA a → ∀ sub ct σ, σ.vars x = v →
    (anyHolds X F a sub ct σ).st.vars x = v
  | .nil, x, v, _, sub, ct, σ, h => h
  | .cons e rest, x, v, hx, sub, ct, σ, h => by
    simp only [asgA, List.mem_append, not_or] at hx
    simp only [anyHolds]
    refine Res.st_bind (keepE e hx.1 ct σ h) fun u σ1 h1 => ?_
    split
    · split
      · exact h1
      · exact keepK rest hx.2 _ ct σ1 h1
    · split
      · exact h1
      · exact keepK rest hx.2 _ ct σ1 h1
    · exact h1
theorem keepC : ∀ (cs : Cases) {x : Nat} {v : Val}, x ∉ asgC cs → ∀ sub void ct σ, σ.vars x = v →
    (evalC X F cs sub void ct σ).st.vars x = v
  | .last true ks b, x, v, hx, sub, void, ct, σ, h => by
    simp only [asgC, List.mem_append, not_or] at hx
    simp only [evalC, st_blockValue]
    exact keepB b hx.2 ct [] σ h (by simp)
  | .last false ks b, x, v, hx, sub, void, ct, σ, h => by
    simp only [asgC, List.mem_append, not_or] at hx
    simp only [evalC]
    refine Res.st_bind (keepK ks hx.1 sub ct σ h) fun t σ1 h1 => ?_
    split
    · rw [st_blockValue]
      exact keepB b hx.2 ct [] σ1 h1 (by simp)
    · exact h1
  | .cons ks b rest, x, v, hx, sub, void, ct, σ, h => by
    simp only [asgC, List.mem_append, not_or] at hx
    simp only [evalC]
    refine Res.st_bind (keepK ks hx.1.1 sub ct σ h) fun t σ1 h1 => ?_
    split
    · rw [st_blockValue]
      exact keepB b hx.1.2 ct [] σ1 h1 (by simp)
    · exact keepC rest hx.2 sub void ct σ1 h1
theorem keepS : ∀ (s : Stmt) {x : Nat} {v : Val}, x ∉ asgS s → ∀ ct σ, σ.vars x = v →
    (execS X F s ct σ).st.vars x = v
  | .expr e, x, v, hx, ct, σ, h => by
    simp only [asgS] at hx
    simp only [execS]
    exact Res.st_bind (keepE e hx ct σ h) fun _ _ h1 => h1
  | .set y e, x, v, hx, ct, σ, h => by
    simp only [asgS, List.mem_cons, not_or] at hx
    simp only [execS]
    exact Res.st_bind (keepE e hx.2 ct σ h) fun _ σ1 h1 => by
      show (σ1.set y _).vars x = v
      rw [set_other hx.1]; exact h1
  | .ite c t e, x, v, hx, ct, σ, h => by
    simp only [asgS, List.mem_append, not_or] at hx
    simp only [execS]
    refine Res.st_test (keepE c hx.1.1 ct σ h) fun _ σ1 h1 => ?_
    split
    · exact keepB t hx.1.2 ct [] σ1 h1 (by simp)
    · exact keepB e hx.2 ct [] σ1 h1 (by simp)
  | .forC c b, x, v, hx, ct, σ, h => by
    simp only [asgS, List.mem_append, not_or] at hx
    simp only [execS]
    exact st_loop (fun σ h => keepE c hx.1 ct σ h) (fun σ h => keepB b hx.2 ct [] σ h (by simp))
      (by intro σ h; exact h) F σ h
  | .forT i c u b, x, v, hx, ct, σ, h => by
    simp only [asgS, List.mem_append, not_or] at hx
    simp only [execS]
    refine Res.st_bind (by rw [Res.st_noJump]; exact keepS i hx.1.1.1 ct σ h) fun _ σ1 h1 => ?_
    exact st_loop (fun σ h => keepE c hx.1.1.2 ct σ h)
      (fun σ h => keepB b hx.2 ct [] σ h (by simp)) (fun σ h => keepS u hx.1.2 ct σ h) F σ1 h1
  | .brk, x, v, hx, ct, σ, h => h
  | .cont, x, v, hx, ct, σ, h => h
  | .retV, x, v, hx, ct, σ, h => h
  | .retE e, x, v, hx, ct, σ, h => by
    simp only [asgS] at hx
    simp only [execS]
    exact Res.st_bind (keepE e hx ct σ h) fun _ _ h1 => h1
  | .ret e, x, v, hx, ct, σ, h => by
    simp only [asgS] at hx
    simp only [execS]
    exact Res.st_bind (keepE e hx ct σ h) fun _ _ h1 => h1
  | .throw e, x, v, hx, ct, σ, h => by
    simp only [asgS] at hx
    simp only [execS]
    exact Res.st_bind (keepE e hx ct σ h) fun _ _ h1 => h1
  | .defer b, x, v, hx, ct, σ, h => h
  | .try b y h', x, v, hx, ct, σ, h => by
    simp only [asgS, List.mem_append, List.mem_cons, not_or] at hx
    have h1 := keepB b hx.1 true [] σ h (by simp)
    simp only [execS]
    split
    · rename_i er σ1 he
      rw [he] at h1
      have h2 := keepB h' (v := v) hx.2.2 ct [] (σ1.set y er) (by rw [set_other hx.2.1]; exact h1)
        (by simp)
      split
      · rename_i he2
        rw [he2] at h2
        exact h2
      · exact h2
    · exact h1
theorem keepB : ∀ (b : Body) {x : Nat} {v : Val}, x ∉ asgB b → ∀ ct D σ, σ.vars x = v →
    (∀ d ∈ D, ∀ σ, σ.vars x = v → (d σ).st.vars x = v) →
    (execB X F b ct D σ).st.vars x = v
  | .nil, x, v, _, ct, D, σ, h, hD => by
    simp only [execB]
    exact st_leave h hD
  | .cons s rest, x, v, hx, ct, D, σ, h, hD => by
    simp only [asgB, List.mem_append, not_or] at hx
    have hs := keepS s hx.1 ct σ h
    have key : ∀ (s : Stmt), (∀ d, s ≠ .defer d) → (execS X F s ct σ).st.vars x = v →
        (execB X F (.cons s rest) ct D σ).st.vars x = v := by
      intro s hnd hs
      rw [execB_cons s hnd]
      cases hr : execS X F s ct σ with
      | ok a σ1 => rw [hr] at hs; exact keepB rest hx.2 ct D σ1 hs hD
      | exit x σ1 => rw [hr] at hs; exact st_leave hs hD
    cases s with
    | defer d =>
      simp only [execB]
      have hd : x ∉ asgB d := by simpa only [asgS] using hx.1
      refine keepB rest hx.2 ct _ σ h ?_
      intro d' hd'
      rcases List.mem_cons.1 hd' with h' | h'
      · subst h'
        intro σ' hσ'
        exact keepB d hd ct [] σ' hσ' (by simp)
      · exact hD d' h'
    | _ => exact key _ (by simp) hs
end

/-! ## Where a deferred block stands does not matter -/

mutual
theorem ctE : ∀ (e : Expr), safeE pl e = true → ∀ ct ct' σ, evalE X F e ct σ = evalE X F e ct' σ
  | .lit v, _, ct, ct', σ => rfl
  | .var (.src x), _, ct, ct', σ => rfl
  | .var (.tmp x), _, ct, ct', σ => rfl
  | .arith o l r, h, ct, ct', σ => by
    simp only [safeE, Bool.and_eq_true] at h
    simp only [evalE, ctE l h.1 ct ct', ctE r h.2 ct ct']
  | .cmp k c l r, h, ct, ct', σ => by
    simp only [safeE, Bool.and_eq_true] at h
    simp only [evalE, ctE l h.1 ct ct', ctE r h.2 ct ct']
  | .and l r, h, ct, ct', σ => by
    simp only [safeE, Bool.and_eq_true] at h
    simp only [evalE, ctE l h.1 ct ct', ctE r h.2 ct ct']
  | .or l r, h, ct, ct', σ => by
    simp only [safeE, Bool.and_eq_true] at h
    simp only [evalE, ctE l h.1 ct ct', ctE r h.2 ct ct']
  | .tern c l r, h, ct, ct', σ => by
    simp only [safeE, Bool.and_eq_true] at h
    simp only [evalE, ctE c h.1.1 ct ct', ctE l h.1.2 ct ct', ctE r h.2 ct ct']
  | .call f fl void args, h, ct, ct', σ => by
    simp only [safeE, Bool.and_eq_true, decide_eq_true_eq] at h
    obtain ⟨⟨hf, hp⟩, ha⟩ := h
    subst hf
    simp only [evalE, ctA args ha ct ct', doCall]
  | .mtch void cs, h, ct, ct', σ => by
    simp only [safeE] at h
    simp only [evalE, ctC cs h none void ct ct']
  | .mtchS _ _ _ _ _, h, ct, ct', σ => by simp [safeE] at h
  | .ctch void d e x b, h, ct, ct', σ => by
    simp only [safeE, Bool.and_eq_true] at h
    simp only [evalE, ctB b h.2 ct ct']
theorem ctA : ∀ (a : Args), safeA pl a = true → ∀ ct ct' σ, evalA X F a ct σ = evalA X F a ct' σ
  | .nil, _, ct, ct', σ => rfl
  | .cons e rest, h, ct, ct', σ => by
    simp only [safeA, Bool.and_eq_true] at h
    simp only [evalA, ctE e h.1 ct ct', ctA rest h.2 ct ct']
theorem ctK : ∀ (a : Args), safeA pl a = true → ∀ sub ct ct' σ,
    anyHolds X F a sub ct σ = anyHolds X F a sub ct' σ
  | .nil, _, sub, ct, ct', σ => rfl
  | .cons e rest, h, sub, ct, ct', σ => by
    simp only [safeA, Bool.and_eq_true] at h
    simp only [anyHolds, ctE e h.1 ct ct', ctK rest h.2 sub ct ct']
theorem ctC : ∀ (cs : Cases), safeC pl cs = true → ∀ sub void ct ct' σ,
    evalC X F cs sub void ct σ = evalC X F cs sub void ct' σ
  | .last true ks b, h, sub, void, ct, ct', σ => by
    simp only [safeC, Bool.and_eq_true] at h
    simp only [evalC, ctB b h.2 ct ct']
  | .last false ks b, h, sub, void, ct, ct', σ => by
    simp only [safeC, Bool.and_eq_true] at h
    simp only [evalC, ctB b h.2 ct ct', ctK ks h.1 sub ct ct']
  | .cons ks b rest, h, sub, void, ct, ct', σ => by
    simp only [safeC, Bool.and_eq_true] at h
    simp only [evalC, ctB b h.1.2 ct ct', ctK ks h.1.1 sub ct ct', ctC rest h.2 sub void ct ct']
theorem ctS : ∀ (s : Stmt), safeS pl s = true → ∀ ct ct' σ, execS X F s ct σ = execS X F s ct' σ
  | .expr e, h, ct, ct', σ => by
    simp only [safeS] at h
    simp only [execS, ctE e h ct ct']
  | .set x e, h, ct, ct', σ => by
    simp only [safeS] at h
    simp only [execS, ctE e h ct ct']
  | .ite c t e, h, ct, ct', σ => by
    simp only [safeS, Bool.and_eq_true] at h
    simp only [execS, ctE c h.1.1 ct ct', ctB t h.1.2 ct ct', ctB e h.2 ct ct']
  | .forC c b, h, ct, ct', σ => by
    simp only [safeS, Bool.and_eq_true] at h
    have e1 : evalE X F c ct = evalE X F c ct' := funext fun σ => ctE c h.1 ct ct' σ
    have e2 : execB X F b ct [] = execB X F b ct' [] := funext fun σ => ctB b h.2 ct ct' [] σ
    simp only [execS, e1, e2]
  | .forT i c u b, h, ct, ct', σ => by
    simp only [safeS, Bool.and_eq_true] at h
    have e1 : evalE X F c ct = evalE X F c ct' := funext fun σ => ctE c h.1.1.2 ct ct' σ
    have e2 : execB X F b ct [] = execB X F b ct' [] := funext fun σ => ctB b h.2 ct ct' [] σ
    have e3 : execS X F u ct = execS X F u ct' := funext fun σ => ctS u h.1.2 ct ct' σ
    simp only [execS, e1, e2, e3, ctS i h.1.1.1 ct ct']
  | .brk, _, ct, ct', σ => rfl
  | .cont, _, ct, ct', σ => rfl
  | .retV, _, ct, ct', σ => rfl
  | .retE _, h, ct, ct', σ => by simp [safeS] at h
  | .ret _, h, ct, ct', σ => by simp [safeS] at h
  | .throw _, h, ct, ct', σ => by simp [safeS] at h
  | .defer _, h, ct, ct', σ => rfl
  | .try b x h', h, ct, ct', σ => by
    simp only [safeS, Bool.and_eq_true] at h
    simp only [execS, ctB h' h.2 ct ct']
theorem ctB : ∀ (b : Body), safeB pl b = true → ∀ ct ct' D σ,
    execB X F b ct D σ = execB X F b ct' D σ
  | .nil, _, ct, ct', D, σ => by simp only [execB]
  | .cons s rest, h, ct, ct', D, σ => by
    simp only [safeB, Bool.and_eq_true] at h
    have hs := ctS s h.1 ct ct' σ
    have key : ∀ (s : Stmt), (∀ d, s ≠ .defer d) → execS X F s ct σ = execS X F s ct' σ →
        execB X F (.cons s rest) ct D σ = execB X F (.cons s rest) ct' D σ := by
      intro s hnd hs
      rw [execB_cons s hnd, execB_cons s hnd, hs]
      cases execS X F s ct' σ with
      | ok a σ1 => exact ctB rest h.2 ct ct' D σ1
      | exit x σ1 => rfl
    cases s with
    | defer d =>
      have hd : safeB pl d = true := by simpa only [safeS] using h.1
      have e2 : execB X F d ct [] = execB X F d ct' [] := funext fun σ => ctB d hd ct ct' [] σ
      simp only [execB, e2]
      exact ctB rest h.2 ct ct' _ σ
    | _ => exact key _ (by simp) hs
end

/-! ## Running a list of deferred blocks -/

/-- Run deferred blocks one after the other. -/
def runAll (X : Ext) (F : Nat) : List Body → St X → Res X Unit
  | [], σ => .ok () σ
  | d :: ds, σ => (execB X F d false [] σ).bind fun _ σ1 => runAll X F ds σ1

theorem runAll_append (ds ds' : List Body) (σ : St X) :
    runAll X F (ds ++ ds') σ = (runAll X F ds σ).bind fun _ σ1 => runAll X F ds' σ1 := by
  induction ds generalizing σ with
  | nil => rfl
  | cons d ds ih =>
    simp only [List.cons_append, runAll]
    cases execB X F d false [] σ with
    | ok a σ1 => exact ih σ1
    | exit x σ1 => rfl

theorem quiet_runAll (hpl : ∀ f, pl f = true → Insensitive X f) {ds : List Body}
    (h : ∀ d ∈ ds, safeB pl d = true) (σ : St X) : Quiet (runAll X F ds σ) := by
  induction ds generalizing σ with
  | nil => trivial
  | cons d ds ih =>
    exact (quietB hpl d (h d (by simp)) false [] σ (by simp)).bind fun _ σ1 =>
      ih (fun d' hd' => h d' (List.mem_cons_of_mem _ hd')) σ1

theorem keep_runAll {ds : List Body} {x : Nat} {v : Val} (h : ∀ d ∈ ds, x ∉ asgB d) (σ : St X)
    (hx : σ.vars x = v) : (runAll X F ds σ).st.vars x = v := by
  induction ds generalizing σ with
  | nil => exact hx
  | cons d ds ih =>
    exact Res.st_bind (keepB d (h d (by simp)) false [] σ hx (by simp)) fun _ σ1 h1 =>
      ih (fun d' hd' => h d' (List.mem_cons_of_mem _ hd')) σ1 h1

/-- The closures of deferred blocks. -/
def clos (X : Ext) (F : Nat) (ct : Bool) (ds : List Body) : List (St X → Res X Unit) :=
  ds.map fun d => execB X F d ct []

theorem leave_ok (hpl : ∀ f, pl f = true → Insensitive X f) (ct : Bool) {ds : List Body}
    (h : ∀ d ∈ ds, safeB pl d = true) (σ : St X) :
    leave (clos X F ct ds) (.ok () σ) = runAll X F ds σ := by
  induction ds generalizing σ with
  | nil => rfl
  | cons d ds ih =>
    have hd := h d (by simp)
    have ih' := ih (fun d' hd' => h d' (List.mem_cons_of_mem _ hd'))
    simp only [clos, List.map_cons, leave, runAll]
    rw [ctB d hd ct false]
    have q := quietB hpl d hd false [] σ (by simp) (F := F)
    cases hr : execB X F d false [] σ with
    | ok a σ1 => exact ih' σ1
    | exit x σ1 =>
      rw [hr] at q
      simp only [Res.bind]
      have : ∀ D : List (St X → Res X Unit), leave D (.exit x σ1) = .exit x σ1 := by
        intro D
        cases D with
        | nil => rfl
        | cons d' D => simp only [leave, q.final, if_true]
      exact this _

theorem leave_exit (hpl : ∀ f, pl f = true → Insensitive X f) (ct : Bool) {ds : List Body}
    (h : ∀ d ∈ ds, safeB pl d = true) {x : Exit} (hx : x.final = false) (σ : St X) :
    leave (clos X F ct ds) (.exit x σ) = (runAll X F ds σ).bind fun _ σ1 => .exit x σ1 := by
  induction ds generalizing σ with
  | nil => rfl
  | cons d ds ih =>
    have hd := h d (by simp)
    have ih' := ih (fun d' hd' => h d' (List.mem_cons_of_mem _ hd'))
    simp only [clos, List.map_cons, leave, runAll, hx, Bool.false_eq_true, if_false]
    rw [ctB d hd ct false]
    have q := quietB hpl d hd false [] σ (by simp) (F := F)
    cases hr : execB X F d false [] σ with
    | ok a σ1 => exact ih' σ1
    | exit y σ1 =>
      rw [hr] at q
      simp only [Res.bind]
      have : ∀ D : List (St X → Res X Unit), leave D (.exit y σ1) = .exit y σ1 := by
        intro D
        cases D with
        | nil => rfl
        | cons d' D => simp only [leave, q.final, if_true]
      exact this _

theorem leave_final (D : List (St X → Res X Unit)) {x : Exit} (hx : x.final = true) (σ : St X) :
    leave D (.exit x σ) = .exit x σ := by
  cases D with
  | nil => rfl
  | cons d D => simp only [leave, hx, if_true]

mutual
theorem safe_idsE : ∀ (e : Expr), safeE pl e = true → idsE e = []
  | .lit _, _ => rfl
  | .var _, _ => rfl
  | .arith _ l r, h => by
    simp only [safeE, Bool.and_eq_true] at h
    simp [idsE, safe_idsE l h.1, safe_idsE r h.2]
  | .cmp _ _ l r, h => by
    simp only [safeE, Bool.and_eq_true] at h
    simp [idsE, safe_idsE l h.1, safe_idsE r h.2]
  | .and l r, h => by
    simp only [safeE, Bool.and_eq_true] at h
    simp [idsE, safe_idsE l h.1, safe_idsE r h.2]
  | .or l r, h => by
    simp only [safeE, Bool.and_eq_true] at h
    simp [idsE, safe_idsE l h.1, safe_idsE r h.2]
  | .tern c l r, h => by
    simp only [safeE, Bool.and_eq_true] at h
    simp [idsE, safe_idsE c h.1.1, safe_idsE l h.1.2, safe_idsE r h.2]
  | .call _ _ _ a, h => by
    simp only [safeE, Bool.and_eq_true] at h
    simp [idsE, safe_idsA a h.2]
  | .mtch _ cs, h => by
    simp only [safeE] at h
    simp [idsE, safe_idsC cs h]
  | .mtchS _ _ _ _ _, h => by simp [safeE] at h
  | .ctch _ _ e _ b, h => by
    simp only [safeE, Bool.and_eq_true] at h
    simp [idsE, safe_idsE e h.1, safe_idsB b h.2]
theorem safe_idsA : ∀ (a : Args), safeA pl a = true → idsA a = []
  | .nil, _ => rfl
  | .cons e r, h => by
    simp only [safeA, Bool.and_eq_true] at h
    simp [idsA, safe_idsE e h.1, safe_idsA r h.2]
theorem safe_idsC : ∀ (a : Cases), safeC pl a = true → idsC a = []
  | .last _ ks b, h => by
    simp only [safeC, Bool.and_eq_true] at h
    simp [idsC, safe_idsA ks h.1, safe_idsB b h.2]
  | .cons ks b r, h => by
    simp only [safeC, Bool.and_eq_true] at h
    simp [idsC, safe_idsA ks h.1.1, safe_idsB b h.1.2, safe_idsC r h.2]
theorem safe_idsS : ∀ (s : Stmt), safeS pl s = true → idsS s = []
  | .expr e, h => by simp only [safeS] at h; simp [idsS, safe_idsE e h]
  | .set _ e, h => by simp only [safeS] at h; simp [idsS, safe_idsE e h]
  | .ite c t e, h => by
    simp only [safeS, Bool.and_eq_true] at h
    simp [idsS, safe_idsE c h.1.1, safe_idsB t h.1.2, safe_idsB e h.2]
  | .forC c b, h => by
    simp only [safeS, Bool.and_eq_true] at h
    simp [idsS, safe_idsE c h.1, safe_idsB b h.2]
  | .forT i c u b, h => by
    simp only [safeS, Bool.and_eq_true] at h
    simp [idsS, safe_idsS i h.1.1.1, safe_idsE c h.1.1.2, safe_idsS u h.1.2, safe_idsB b h.2]
  | .brk, _ => rfl
  | .cont, _ => rfl
  | .retV, _ => rfl
  | .retE _, h => by simp [safeS] at h
  | .ret _, h => by simp [safeS] at h
  | .throw _, h => by simp [safeS] at h
  | .defer b, h => by simp only [safeS] at h; simp [idsS, safe_idsB b h]
  | .try b _ h', h => by
    simp only [safeS, Bool.and_eq_true] at h
    simp [idsS, safe_idsB b h.1, safe_idsB h' h.2]
theorem safe_idsB : ∀ (b : Body), safeB pl b = true → idsB b = []
  | .nil, _ => rfl
  | .cons s r, h => by
    simp only [safeB, Bool.and_eq_true] at h
    simp [idsB, safe_idsS s h.1, safe_idsB r h.2]
end

end Nature.Linear.Spec
