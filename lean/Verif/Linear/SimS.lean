import Verif.Linear.SimC

/-! # Statements, blocks and deferred blocks: the simulation -/
namespace Nature.Linear

open Spec

variable {X : Ext} {P : List Instr} {F : Nat} {pl : Nat → Bool} {A : List Nat} {n : Nat}

mutual
theorem safe_noRetS : ∀ (s : Stmt), safeS pl s = true → noRetS s = true
  | .ite c t e, h => by
    simp only [safeS, Bool.and_eq_true] at h
    simp [noRetS, safe_noRetB t h.1.2, safe_noRetB e h.2]
  | .forC c b, h => by
    simp only [safeS, Bool.and_eq_true] at h
    simp [noRetS, safe_noRetB b h.2]
  | .forT i c u b, h => by
    simp only [safeS, Bool.and_eq_true] at h
    simp [noRetS, safe_noRetS i h.1.1.1, safe_noRetS u h.1.2, safe_noRetB b h.2]
  | .try b x hh, h => by
    simp only [safeS, Bool.and_eq_true] at h
    simp [noRetS, safe_noRetB b h.1, safe_noRetB hh h.2]
  | .ret e, h => by simp [safeS] at h
  | .expr _, _ => rfl
  | .set _ _, _ => rfl
  | .brk, _ => rfl
  | .cont, _ => rfl
  | .retV, _ => rfl
  | .retE _, _ => rfl
  | .throw _, _ => rfl
  | .defer _, _ => rfl
theorem safe_noRetB : ∀ (b : Body), safeB pl b = true → noRetB b = true
  | .nil, _ => rfl
  | .cons s r, h => by
    simp only [safeB, Bool.and_eq_true] at h
    simp [noRetB, safe_noRetS s h.1, safe_noRetB r h.2]
end

/-! ## Loops -/

/-- What the body of a loop does, seen from the loop. -/
def BodyArr (F : Nat) (P : List Instr) (s : Cfg X) (updc done : LSt X → Cfg X) (N : Nat)
    (ex : List Name) (l0 : LSt X) (p : Option Val) (Γ : Ctx) : Res X Unit → Prop
  | .ok _ σ => ∃ m l, Steps X P m s (updc l) ∧ Rel p σ l ∧ Fr N ex l0 l
  | .exit .cont σ => ∃ m l, Steps X P m s (updc l) ∧ Rel p σ l ∧ Fr N ex l0 l
  | .exit .brk σ => ∃ m l, Steps X P m s (done l) ∧ Rel p σ l ∧ Fr N ex l0 l
  | .exit x σ => ExitArr F F P s N ex l0 p Γ x σ

theorem simLoop {cond : St X → Res X Val} {body upd : St X → Res X Unit} {Γ : Ctx} {N : Nat}
    {ex : List Name} {l0 : LSt X} {p : Option Val} {start start' bodyc updc done : LSt X → Cfg X}
    (hstart : ∀ l, Steps X P 1 (start l) (start' l))
    (hcond : ∀ σ l, Rel p σ l → Fr N ex l0 l → Arr F F P (start' l) N ex l0 p Γ (cond σ).noJump
      (fun v l' cf => ∀ b, v = .b b → cf = if b = false then done l' else bodyc l'))
    (hbody : ∀ σ l, Rel p σ l → Fr N ex l0 l → BodyArr F P (bodyc l) updc done N ex l0 p Γ (body σ))
    (hupd : ∀ σ l, Rel p σ l → Fr N ex l0 l → Arr F F P (updc l) N ex l0 p Γ (upd σ).noJump
      (fun _ l' cf => cf = start l')) :
    ∀ n, n ≤ F → ∀ σ l, Rel p σ l → Fr N ex l0 l →
      Arr F n P (start l) N ex l0 p Γ (loop cond body upd n σ) (fun _ l' cf => cf = done l') := by
  intro n
  induction n with
  | zero =>
    intro _ σ l hR hf
    exact ⟨0, start l, Steps.refl _, Nat.zero_le _⟩
  | succ n ih =>
    intro hn σ l hR hf
    have key : Arr F n P (start' l) N ex l0 p Γ (loop cond body upd (n + 1) σ)
        (fun _ l' cf => cf = done l') → Arr F (n + 1) P (start l) N ex l0 p Γ
          (loop cond body upd (n + 1) σ) (fun _ l' cf => cf = done l') :=
      fun h => Arr.pre (hstart l) h
    refine key ?_
    simp only [loop]
    refine Arr.test (hcond σ l hR hf) (by omega) (Fr.refl _ _ _) (Nat.le_refl _) (fun _ _ h => h) ?_
    intro t σ1 l1 cf hr1 hR1 hf1 hq
    have hf1' := hf1
    have hq := hq t rfl
    subst hq
    cases t with
    | false => exact Arr.ret hR1 hf1' rfl
    | true =>
      simp only [if_true, Bool.true_eq_false, if_false]
      have hb := hbody σ1 l1 hR1 hf1'
      have more : ∀ σ2, (∃ m l, Steps X P m (bodyc l1) (updc l) ∧ Rel p σ2 l ∧ Fr N ex l0 l) →
          Arr F n P (bodyc l1) N ex l0 p Γ (((upd σ2).noJump).bind fun _ σ3 => loop cond body upd n σ3)
            (fun _ l' cf => cf = done l') := by
        rintro σ2 ⟨m, l2, e1, e2, e3⟩
        refine Arr.steps e1 ?_
        refine Arr.seq (hupd σ2 l2 e2 e3) (by omega) (Fr.refl _ _ _) (Nat.le_refl _)
          (fun _ _ h => h) ?_
        rintro _ σ3 l3 cf hr3 hR3 hf3 rfl
        exact ih (by omega) σ3 l3 hR3 hf3
      cases hr : body σ1 with
      | ok a σ2 =>
        rw [hr] at hb
        exact more σ2 hb
      | exit x σ2 =>
        rw [hr] at hb
        cases x with
        | cont => exact more σ2 hb
        | brk =>
          obtain ⟨m, l2, e1, e2, e3⟩ := hb
          exact Arr.steps e1 (Arr.ret e2 e3 rfl)
        | ret v =>
          have hb : ExitArr F F P (bodyc l1) N ex l0 p Γ (.ret v) σ2 := hb
          exact ExitArr.mono hb (by omega) (Fr.refl _ _ _) (Nat.le_refl _) (fun _ _ h => h)
            (fun _ => rfl) (fun _ _ => rfl) (fun _ _ h => h)
        | retn v =>
          have hb : ExitArr F F P (bodyc l1) N ex l0 p Γ (.retn v) σ2 := hb
          exact ExitArr.mono hb (by omega) (Fr.refl _ _ _) (Nat.le_refl _) (fun _ _ h => h)
            (fun _ => rfl) (fun _ _ => rfl) (fun _ _ h => h)
        | thrown v =>
          have hb : ExitArr F F P (bodyc l1) N ex l0 p Γ (.thrown v) σ2 := hb
          exact ExitArr.mono hb (by omega) (Fr.refl _ _ _) (Nat.le_refl _) (fun _ _ h => h)
            (fun _ => rfl) (fun _ _ => rfl) (fun _ _ h => h)
        | err v =>
          have hb : ExitArr F F P (bodyc l1) N ex l0 p Γ (.err v) σ2 := hb
          exact ExitArr.mono hb (by omega) (Fr.refl _ _ _) (Nat.le_refl _) (fun _ _ h => h)
            (fun _ => rfl) (fun _ _ => rfl) (fun _ _ h => h)
        | abort =>
          have hb : ExitArr F F P (bodyc l1) N ex l0 p Γ (.abort) σ2 := hb
          exact ExitArr.mono hb (by omega) (Fr.refl _ _ _) (Nat.le_refl _) (fun _ _ h => h)
            (fun _ => rfl) (fun _ _ => rfl) (fun _ _ h => h)
        | timeout =>
          have hb : ExitArr F F P (bodyc l1) N ex l0 p Γ (.timeout) σ2 := hb
          exact ExitArr.mono hb (by omega) (Fr.refl _ _ _) (Nat.le_refl _) (fun _ _ h => h)
            (fun _ => rfl) (fun _ _ => rfl) (fun _ _ h => h)
        | stuck =>
          have hb : ExitArr F F P (bodyc l1) N ex l0 p Γ (.stuck) σ2 := hb
          exact ExitArr.mono hb (by omega) (Fr.refl _ _ _) (Nat.le_refl _) (fun _ _ h => h)
            (fun _ => rfl) (fun _ _ => rfl) (fun _ _ h => h)

/-- From inside a loop to the outside, for what is not a jump of the loop. -/
theorem Arr.unloop {α : Type} {B N : Nat} {ex : List Name} {l0 : LSt X} {p : Option Val} {Γ : Ctx}
    {s : Cfg X} {r : Res X α} {Q : α → LSt X → Cfg X → Prop} {lc le : Nat}
    (h : Arr F B P s N ex l0 p { Γ with conts := lc :: Γ.conts, brks := le :: Γ.brks } r Q) :
    Arr F B P s N ex l0 p Γ r.noJump Q := by
  cases r with
  | ok a σ => exact h
  | exit x σ =>
    cases x with
    | brk => trivial
    | cont => trivial
    | _ => exact Arr.exitIn h (fun _ => rfl) (fun _ _ => rfl) (fun _ _ h => h)

theorem Arr.loopBody {N N' : Nat} {ex : List Name} {l0 l1 : LSt X} {p : Option Val} {Γ : Ctx}
    {s : Cfg X} {r : Res X Unit} {Q : Unit → LSt X → Cfg X → Prop} {lc le : Nat}
    {updc done : LSt X → Cfg X}
    (hd : ∀ s ∈ Γ.scopes, s.cd ≤ Γ.conts.length ∧ s.bd ≤ Γ.brks.length)
    (h : Arr F F P s N' ex l1 p { Γ with conts := lc :: Γ.conts, brks := le :: Γ.brks } r Q)
    (fr : Fr N ex l0 l1) (hN : N ≤ N')
    (hQ : ∀ l c, Q () l c → c = updc l) (hc : ∀ l, goto P lc l = updc l)
    (hb : ∀ l, goto P le l = done l) : BodyArr F P s updc done N ex l0 p Γ r := by
  cases r with
  | ok a σ =>
    obtain ⟨m, c, l, h1, h2, h3, h4⟩ := h
    have := hQ l c h4
    subst this
    exact ⟨m, l, h1, h2, fr.trans h3 hN (fun _ _ h => h)⟩
  | exit x σ =>
    have h : ExitArr F F P s N' ex l1 p { Γ with conts := lc :: Γ.conts, brks := le :: Γ.brks } x σ := h
    cases x with
    | cont =>
      rw [exitArr_iff rfl] at h
      have e : exitPend { Γ with conts := lc :: Γ.conts, brks := le :: Γ.brks } .cont = [] :=
        pending_none fun s hs => Nat.lt_succ_of_le (hd s hs).1
      rw [e] at h
      obtain ⟨m, l, h1, h2, h3, _⟩ := h
      exact ⟨m, l, by rw [← hc]; exact h1, h2, fr.trans h3 hN (fun _ _ h => h)⟩
    | brk =>
      rw [exitArr_iff rfl] at h
      have e : exitPend { Γ with conts := lc :: Γ.conts, brks := le :: Γ.brks } .brk = [] :=
        pending_none fun s hs => Nat.lt_succ_of_le (hd s hs).2
      rw [e] at h
      obtain ⟨m, l, h1, h2, h3, _⟩ := h
      exact ⟨m, l, by rw [← hb]; exact h1, h2, fr.trans h3 hN (fun _ _ h => h)⟩
    | _ =>
      exact ExitArr.mono h (Nat.le_refl _) fr hN (fun _ _ h => h)
        (fun _ => rfl) (fun _ _ => rfl) (fun _ _ h => h)

/-- A statement whose frame can be chosen. -/
theorem Arr.calm {N : Nat} {ex : List Name} {l : LSt X} {p : Option Val} {Γ : Ctx}
    {s : Cfg X} {r : Res X Unit} {post : List Instr} {nr calm : Bool}
    (hc : calm = true → nr = true) (hx : nr = true ∨ ∀ t ∈ hd Γ, t ∈ ex)
    (h : ∀ ex', (nr = true ∨ ∀ t ∈ hd Γ, t ∈ ex') →
      Arr F F P s N ex' l p Γ r (fun _ l' cf => cf = .run post l')) :
    Arr F F P s N ex l p Γ r (QS post calm N l) := by
  cases hcalm : calm with
  | true =>
    have := h [] (.inl (hc hcalm))
    have this : Arr F F P s N [] l p Γ r (QS post true N l) :=
      Arr.post this fun a σ l1 c hr hR hf hq => Arr.ret hR hf ⟨hq, fun _ => hf⟩
    exact this.mono (Nat.le_refl _) (Fr.refl _ _ _) (Nat.le_refl _) (by simp) (fun _ _ _ h => h)
  | false =>
    exact (h ex hx).mono (Nat.le_refl _) (Fr.refl _ _ _) (Nat.le_refl _) (fun _ _ h => h)
      (fun _ _ _ h => ⟨h, by simp⟩)

/-! ## Statements -/

theorem simS (hU : Uniq P) (hpl : ∀ f, pl f = true → Insensitive X f) (I : Sim X F P pl A n) :
    ∀ Γ s c u k c' ct rt p ex, linS (n + 1) Γ s c = some (u, k, c') →
    CtxOk pl A Γ c.tmp ct rt → goodS pl A rt s = true →
    (noRetS s = true ∨ ∀ t ∈ hd Γ, t ∈ ex) →
    (p = none ∨ safeS pl s = true) → Fresh (idsS s) c → ∀ post, (k ++ post) <:+ P →
    ∀ (σ : St X) l, Rel p σ l →
    Arr F F P (.run (k ++ post) l) c.tmp ex l p Γ (execS X F s ct σ) (QS post (calmS s) c.tmp l) := by
  intro Γ s c u k c' ct rt p ex h hΓ hg hx hp hF post hs σ l hR
  have ST := stat (pl := pl) (A := A) n
  cases s with
  | expr e =>
    simp only [linS] at h
    simp only [goodS] at hg
    obtain ⟨_, k1, c1, k2, he, h1, rfl⟩ := bind_some.1 h
    obtain ⟨_, rfl, rfl⟩ := pure_some.1 h1
    norm
    simp only [execS]
    refine Arr.seq ((I.e Γ none e c _ k1 _ ct rt p he hΓ TgtOk.none hg
      (hp.imp id fun h => by simpa only [safeS] using h) hF).2 _ hs σ l hR) (Nat.le_refl _) (Fr.refl _ _ _)
      (Nat.le_refl _) (by simp) ?_
    rintro v σ1 l1 cf hr1 hR1 hf1 ⟨rfl, hv⟩
    exact Arr.ret hR1 (fr0 hf1 (Nat.le_refl _)) ⟨rfl, fun _ => hf1⟩
  | set x e =>
    simp only [linS] at h
    simp only [goodS] at hg
    obtain ⟨_, k1, c1, k2, he, h1, rfl⟩ := bind_some.1 h
    obtain ⟨o, rfl, h2⟩ := bind_need.1 h1
    obtain ⟨rfl, rfl⟩ := emit_some.1 h2
    norm
    simp only [execS]
    refine Arr.seq ((I.e Γ none e c _ k1 _ ct rt p he hΓ TgtOk.none hg
      (hp.imp id fun h => by simpa only [safeS] using h) hF).2 _ hs σ l hR) (Nat.le_refl _) (Fr.refl _ _ _)
      (Nat.le_refl _) (by simp) ?_
    rintro v σ1 l1 cf hr1 hR1 hf1 ⟨rfl, hv⟩
    refine Arr.step ?_
    simp only [step]
    rw [hv o rfl]
    have hf2 : Fr c.tmp [] l (l1.set (.src x) v) := hf1.set (by simp) v
    exact Arr.ret (hR1.setS x v) (fr0 hf2 (Nat.le_refl _)) ⟨rfl, fun _ => hf2⟩
  | ite cnd t e =>
    simp only [linS] at h
    simp only [goodS, Bool.and_eq_true, Bool.not_eq_true'] at hg
    simp only [idsS] at hF
    have hpc : p = none ∨ safeE pl cnd = true :=
      hp.imp id fun h => by simp only [safeS, Bool.and_eq_true] at h; exact h.1.1
    have hpt : p = none ∨ safeB pl t = true :=
      hp.imp id fun h => by simp only [safeS, Bool.and_eq_true] at h; exact h.1.2
    have hpe : p = none ∨ safeB pl e = true :=
      hp.imp id fun h => by simp only [safeS, Bool.and_eq_true] at h; exact h.2
    have hxt : noRetB t = true ∨ ∀ t ∈ hd Γ, t ∈ ex :=
      hx.imp (fun h => by simp only [noRetS, Bool.and_eq_true] at h; exact h.1) id
    have hxe : noRetB e = true ∨ ∀ t ∈ hd Γ, t ∈ ex :=
      hx.imp (fun h => by simp only [noRetS, Bool.and_eq_true] at h; exact h.2) id
    have hF0 : Fresh (idsE cnd ++ (idsB t ++ idsB e))
        { lbl := c.lbl + 1 + 1 + 1, tmp := c.tmp, seen := c.seen } := by
      rw [← List.append_assoc]; exact hF.same rfl
    have h1 := bind_freshL.1 (bind_freshL.1 (bind_freshL.1 h))
    -- one of the branches
    have branch : ∀ (b : Body) (c1 c2 : CSt) u1 k1 tail (σ1 : St X) (l1 : LSt X),
        linB n Γ b c1 = some (u1, k1, c2) → c.tmp ≤ c1.tmp → goodB pl A rt b = true →
        (noRetB b = true ∨ ∀ t ∈ hd Γ, t ∈ ex) → (p = none ∨ safeB pl b = true) →
        Fresh (idsB b) c1 → (k1 ++ tail) <:+ P → Rel p σ1 l1 → Fr c.tmp [] l l1 →
        (∀ l2, ∃ m, Steps X P m (.run tail l2) (.run post l2)) →
        (calmS (.ite cnd t e) = true → calmB b = true) →
        Arr F F P (.run (k1 ++ tail) l1) c.tmp ex l p Γ (execB X F b ct [] σ1)
          (QS post (calmS (.ite cnd t e)) c.tmp l) := by
      intro b c1 c2 u1 k1 tail σ1 l1 hb hle gb xb pb fb sb hR1 fr1 htail hcalm
      have ib := I.b Γ b c1 _ k1 c2 ct rt p ex hb (hΓ.mono hle) gb xb pb fb _ sb σ1 l1 hR1
      rw [← bind_id (execB X F b ct [] σ1)]
      refine Arr.seq ib (Nat.le_refl _) (fr0 fr1 (Nat.le_refl _)) hle (fun _ _ h => h) ?_
      rintro a σ2 l2 cf hr2 hR2 hf2 ⟨rfl, hc2⟩
      obtain ⟨m, hst⟩ := htail l2
      refine Arr.steps hst ?_
      exact Arr.ret hR2 ((fr0 fr1 (Nat.le_refl _)).trans hf2 hle (fun _ _ h => h))
        ⟨rfl, fun hc => fr1.trans (hc2 (hcalm hc)) hle (by simp)⟩
    cases e with
    | nil =>
      obtain ⟨_, k1, c1, k2, hj, h2, rfl⟩ := bind_some.1 h1
      obtain ⟨k3, h3, rfl⟩ := bind_emit.1 h2
      obtain ⟨_, k4, c2, k5, hb, h4, rfl⟩ := bind_some.1 h3
      obtain ⟨rfl, rfl⟩ := emit_some.1 h4
      norm
      have S1 := ST.j Γ rt cnd _ true hΓ.sc hg.1.1.1 _ _ _ _ hj
      have L1 : c.tmp ≤ c1.tmp := S1.2.1
      simp only [execS]
      refine Arr.test (I.j Γ cnd _ true _ _ k1 c1 ct rt p hj hΓ hg.1.1.1 (fun _ => hg.1.1.2) hpc
        hF0.left _ hs σ l hR) (Nat.le_refl _) (Fr.refl _ _ _) (Nat.le_refl _) (by simp) ?_
      intro v σ1 l1 cf hr1 hR1 hf1 hq
      have hq := hq v rfl
      subst hq
      have hle : ∀ l2 : LSt X, goto P (c.lbl + 1) l2 = .run (.label (c.lbl + 1) :: post) l2 :=
        fun l2 => goto_eq hU (by suf hs) l2
      cases v with
      | true =>
        simp only [if_true]
        refine Arr.step ?_
        simp only [step]
        refine branch t c1 _ _ k4 _ σ1 l1 hb L1 hg.1.2 hxt hpt (hF0.right S1.2.2.2).left (by suf hs)
          hR1 hf1 (fun l2 => ⟨2, ?_⟩) (fun h => by simp only [calmS, Bool.and_eq_true] at h; exact h.1)
        refine Steps.head ?_
        simp only [step]
        rw [hle]
        exact Steps.one _ _
      | false =>
        simp only [Bool.false_eq_true, if_false]
        rw [hle]
        refine Arr.step ?_
        simp only [step, execB, leave]
        exact Arr.ret hR1 (fr0 hf1 (Nat.le_refl _)) ⟨rfl, fun _ => hf1⟩
    | cons s rest =>
      obtain ⟨_, k1, c1, k2, hj, h2, rfl⟩ := bind_some.1 h1
      obtain ⟨k3, h3, rfl⟩ := bind_emit.1 h2
      obtain ⟨_, k4, c2, k5, hb, h4, rfl⟩ := bind_some.1 h3
      obtain ⟨k6, h5, rfl⟩ := bind_emit.1 h4
      obtain ⟨_, k7, c3, k8, hb2, h6, rfl⟩ := bind_some.1 h5
      obtain ⟨rfl, rfl⟩ := emit_some.1 h6
      norm
      have S1 := ST.j Γ rt cnd _ true hΓ.sc hg.1.1.1 _ _ _ _ hj
      have L1 : c.tmp ≤ c1.tmp := S1.2.1
      have S2 := ST.b Γ rt t hΓ.sc hg.1.2 _ _ _ _ hb
      simp only [execS]
      refine Arr.test (I.j Γ cnd _ true _ _ k1 c1 ct rt p hj hΓ hg.1.1.1 (fun _ => hg.1.1.2) hpc
        hF0.left _ hs σ l hR) (Nat.le_refl _) (Fr.refl _ _ _) (Nat.le_refl _) (by simp) ?_
      intro v σ1 l1 cf hr1 hR1 hf1 hq
      have hq := hq v rfl
      subst hq
      have hF1 := hF0.right S1.2.2.2
      have hle : ∀ l2 : LSt X, goto P (c.lbl + 1) l2 = .run (.label (c.lbl + 1) :: post) l2 :=
        fun l2 => goto_eq hU (by suf hs) l2
      cases v with
      | true =>
        simp only [if_true]
        refine Arr.step ?_
        simp only [step]
        refine branch t c1 _ _ k4 _ σ1 l1 hb L1 hg.1.2 hxt hpt hF1.left (by suf hs)
          hR1 hf1 (fun l2 => ⟨2, ?_⟩) (fun h => by simp only [calmS, Bool.and_eq_true] at h; exact h.1)
        refine Steps.head ?_
        simp only [step]
        rw [hle]
        exact Steps.one _ _
      | false =>
        simp only [Bool.false_eq_true, if_false]
        rw [goto_eq hU (k := k7 ++ .label (c.lbl + 1) :: post) (by suf hs)]
        refine Arr.step ?_
        simp only [step]
        exact branch _ c2 _ _ k7 _ σ1 l1 hb2 (Nat.le_trans L1 S2.2.1) hg.2 hxe hpe
          (hF1.right S2.2.2.2) (by suf hs) hR1 hf1 (fun l2 => ⟨1, Steps.one _ _⟩)
          (fun h => by simp only [calmS, Bool.and_eq_true] at h; exact h.2)
  | forC cnd b =>
    simp only [linS] at h
    simp only [goodS, Bool.and_eq_true] at hg
    simp only [idsS] at hF
    have hpc : p = none ∨ safeE pl cnd = true :=
      hp.imp id fun h => by simp only [safeS, Bool.and_eq_true] at h; exact h.1
    have hpb : p = none ∨ safeB pl b = true :=
      hp.imp id fun h => by simp only [safeS, Bool.and_eq_true] at h; exact h.2
    have h1 := bind_freshL.1 (bind_freshL.1 (bind_freshL.1 (bind_freshL.1 h)))
    obtain ⟨k1, h2, rfl⟩ := bind_emit.1 h1
    obtain ⟨_, k2, c1, k3, hb, h3, rfl⟩ := bind_some.1 h2
    obtain ⟨k4, h4, rfl⟩ := bind_emit.1 h3
    obtain ⟨_, k5, c2, k6, hj, h5, rfl⟩ := bind_some.1 h4
    obtain ⟨rfl, rfl⟩ := emit_some.1 h5
    norm
    refine Arr.calm (nr := noRetS (.forC cnd b)) (fun h => by simpa only [calmS, noRetS] using h) hx
      fun ex' hx' => ?_
    simp only [noRetS] at hx'
    have S1 := ST.b { Γ with conts := (c.lbl + 1 + 1) :: Γ.conts, brks := (c.lbl + 1 + 1 + 1) :: Γ.brks }
      rt b hΓ.sc hg.2 _ _ _ _ hb
    have L1 : c.tmp ≤ c1.tmp := S1.2.1
    -- compiled: body before condition
    have hFb : Fresh (idsB b) { lbl := c.lbl + 1 + 1 + 1 + 1, tmp := c.tmp, seen := c.seen } :=
      (hF.right (c' := c) (fun i hi => .inl hi)).same rfl
    have hFc : Fresh (idsE cnd) c1 := by
      refine ⟨hF.left.1, fun i hi hi' => ?_⟩
      rcases S1.2.2.2 i hi' with h | h
      · exact hF.left.2 i hi h
      · exact (List.nodup_append.1 hF.1).2.2 i hi i h rfl
    have glc : ∀ l2 : LSt X, goto P (c.lbl + 1 + 1) l2 =
        .run (.label (c.lbl + 1 + 1) :: (k5 ++ .label (c.lbl + 1 + 1 + 1) :: post)) l2 :=
      fun l2 => goto_eq hU (by suf hs) l2
    have gle : ∀ l2 : LSt X, goto P (c.lbl + 1 + 1 + 1) l2 =
        .run (.label (c.lbl + 1 + 1 + 1) :: post) l2 :=
      fun l2 => goto_eq hU (by suf hs) l2
    have glk : ∀ l2 : LSt X, goto P (c.lbl + 1) l2 =
        .run (.label (c.lbl + 1) :: (k2 ++ .label (c.lbl + 1 + 1) ::
          (k5 ++ .label (c.lbl + 1 + 1 + 1) :: post))) l2 :=
      fun l2 => goto_eq hU (by suf hs) l2
    refine Arr.step ?_
    simp only [step]
    refine Arr.step ?_
    simp only [step]
    rw [glc]
    simp only [execS]
    have key := simLoop (X := X) (P := P) (F := F) (Γ := Γ) (N := c.tmp) (ex := ex') (l0 := l) (p := p)
      (cond := evalE X F cnd ct) (body := execB X F b ct []) (upd := fun σ => .ok () σ)
      (start := fun l2 => .run (.label (c.lbl + 1 + 1) :: (k5 ++ .label (c.lbl + 1 + 1 + 1) :: post)) l2)
      (start' := fun l2 => .run (k5 ++ .label (c.lbl + 1 + 1 + 1) :: post) l2)
      (bodyc := fun l2 => goto P (c.lbl + 1) l2)
      (updc := fun l2 => .run (.label (c.lbl + 1 + 1) :: (k5 ++ .label (c.lbl + 1 + 1 + 1) :: post)) l2)
      (done := fun l2 => .run (.label (c.lbl + 1 + 1 + 1) :: post) l2)
      (fun l2 => Steps.one _ _) ?_ ?_ ?_ F (Nat.le_refl F) σ l hR (Fr.refl _ _ _)
    · refine Arr.post key ?_
      rintro a σ1 l1 cf hr1 hR1 hf1 rfl
      refine Arr.step ?_
      simp only [step]
      exact Arr.ret hR1 hf1 rfl
    · intro σ1 l1 hR1 hf1
      have ij := (I.j _ cnd _ false _ _ k5 _ ct rt p hj ((hΓ.mono L1).loop _ _) hg.1 (by simp) hpc hFc _
        (by suf hs) σ1 l1 hR1).unloop
      exact ij.mono (Nat.le_refl _) hf1 L1 (by simp) (fun _ _ _ h => h)
    · intro σ1 l1 hR1 hf1
      simp only [glk]
      have ib := I.b _ b _ _ k2 _ ct rt p ex' hb (hΓ.loop _ _) hg.2 hx' hpb hFb _ (by suf hs) σ1 l1 hR1
      have ib2 := Arr.step (k := .label (c.lbl + 1) :: (k2 ++ .label (c.lbl + 1 + 1) ::
          (k5 ++ .label (c.lbl + 1 + 1 + 1) :: post))) ib
      refine Arr.loopBody (fun s hs => ⟨(hΓ.dep s hs).1, (hΓ.dep s hs).2.1⟩) ib2 hf1
        (Nat.le_refl _) ?_ glc gle
      rintro l2 cf ⟨rfl, _⟩
      rfl
    · intro σ1 l1 hR1 hf1
      exact Arr.ret hR1 hf1 rfl
  | forT i cnd upd b =>
    simp only [linS] at h
    simp only [goodS, Bool.and_eq_true] at hg
    simp only [idsS] at hF
    have hpi : p = none ∨ safeS pl i = true :=
      hp.imp id fun h => by simp only [safeS, Bool.and_eq_true] at h; exact h.1.1.1
    have hpc : p = none ∨ safeE pl cnd = true :=
      hp.imp id fun h => by simp only [safeS, Bool.and_eq_true] at h; exact h.1.1.2
    have hpu : p = none ∨ safeS pl upd = true :=
      hp.imp id fun h => by simp only [safeS, Bool.and_eq_true] at h; exact h.1.2
    have hpb : p = none ∨ safeB pl b = true :=
      hp.imp id fun h => by simp only [safeS, Bool.and_eq_true] at h; exact h.2
    have h1 := bind_freshL.1 (bind_freshL.1 (bind_freshL.1 (bind_freshL.1 (bind_freshL.1 h))))
    obtain ⟨k1, h2, rfl⟩ := bind_emit.1 h1
    obtain ⟨_, ki, c1, k3, hi, h3, rfl⟩ := bind_some.1 h2
    obtain ⟨k4, h4, rfl⟩ := bind_emit.1 h3
    obtain ⟨_, kb, c2, k5, hb, h5, rfl⟩ := bind_some.1 h4
    obtain ⟨k6, h6, rfl⟩ := bind_emit.1 h5
    obtain ⟨_, ku, c3, k7, hu, h7, rfl⟩ := bind_some.1 h6
    obtain ⟨k8, h8, rfl⟩ := bind_emit.1 h7
    obtain ⟨_, kj, c4, k9, hj, h9, rfl⟩ := bind_some.1 h8
    obtain ⟨rfl, rfl⟩ := emit_some.1 h9
    norm
    refine Arr.calm (nr := noRetS (.forT i cnd upd b)) (fun h => by simpa only [calmS, noRetS] using h) hx
      fun ex' hx' => ?_
    simp only [noRetS, Bool.and_eq_true] at hx'
    have hxi : noRetS i = true ∨ ∀ t ∈ hd Γ, t ∈ ex' := hx'.imp (fun h => h.1.1) id
    have hxu : noRetS upd = true ∨ ∀ t ∈ hd Γ, t ∈ ex' := hx'.imp (fun h => h.1.2) id
    have hxb : noRetB b = true ∨ ∀ t ∈ hd Γ, t ∈ ex' := hx'.imp (fun h => h.2) id
    have S1 := ST.s { Γ with conts := (c.lbl + 1) :: Γ.conts, brks := (c.lbl + 1 + 1 + 1 + 1) :: Γ.brks }
      rt i hΓ.sc hg.1.1.1 _ _ _ _ hi
    have S2 := ST.b { Γ with conts := (c.lbl + 1) :: Γ.conts, brks := (c.lbl + 1 + 1 + 1 + 1) :: Γ.brks }
      rt b hΓ.sc hg.2 _ _ _ _ hb
    have S3 := ST.s { Γ with conts := (c.lbl + 1) :: Γ.conts, brks := (c.lbl + 1 + 1 + 1 + 1) :: Γ.brks }
      rt upd hΓ.sc hg.1.2 _ _ _ _ hu
    have L1 : c.tmp ≤ c1.tmp := S1.2.1
    have L2 : c.tmp ≤ c2.tmp := Nat.le_trans L1 S2.2.1
    have L3 : c.tmp ≤ c3.tmp := Nat.le_trans L2 S3.2.1
    have Z1 : ∀ j, j ∈ seenIds c1 → j ∈ seenIds c ∨ j ∈ idsS i := S1.2.2.2
    have Z2 : ∀ j, j ∈ seenIds c2 → (j ∈ seenIds c ∨ j ∈ idsS i) ∨ j ∈ idsB b :=
      fun j hj => (S2.2.2.2 j hj).imp (Z1 j) id
    have Z3 : ∀ j, j ∈ seenIds c3 → ((j ∈ seenIds c ∨ j ∈ idsS i) ∨ j ∈ idsB b) ∨ j ∈ idsS upd :=
      fun j hj => (S3.2.2.2 j hj).imp (Z2 j) id
    have hnd : (idsS i ++ idsE cnd ++ idsS upd ++ idsB b).Nodup := by
      simpa only [List.append_assoc] using hF.1
    obtain ⟨n3, nb, d3⟩ := List.nodup_append.1 hnd
    obtain ⟨n2, nu, d2⟩ := List.nodup_append.1 n3
    obtain ⟨ni, nc, d1⟩ := List.nodup_append.1 n2
    have hFi : Fresh (idsS i) { lbl := c.lbl + 1 + 1 + 1 + 1 + 1, tmp := c.tmp, seen := c.seen } :=
      (Fresh.left hF).same rfl
    have sub : ∀ j, j ∈ seenIds c → j ∉ idsE cnd ∧ j ∉ idsS upd ∧ j ∉ idsB b := by
      intro j h
      refine ⟨fun h' => hF.2 j ?_ h, fun h' => hF.2 j ?_ h, fun h' => hF.2 j ?_ h⟩ <;> simp [h']
    have hFb : Fresh (idsB b) c1 := by
      refine ⟨nb, fun j hj hj' => ?_⟩
      rcases Z1 j hj' with h | h
      · exact (sub j h).2.2 hj
      · exact d3 j (by simp [h]) j hj rfl
    have hFu : Fresh (idsS upd) c2 := by
      refine ⟨nu, fun j hj hj' => ?_⟩
      rcases Z2 j hj' with (h | h) | h
      · exact (sub j h).2.1 hj
      · exact d2 j (by simp [h]) j hj rfl
      · exact d3 j (by simp [hj]) j h rfl
    have hFc : Fresh (idsE cnd) c3 := by
      refine ⟨nc, fun j hj hj' => ?_⟩
      rcases Z3 j hj' with ((h | h) | h) | h
      · exact (sub j h).1 hj
      · exact d1 j h j hj rfl
      · exact d3 j (by simp [hj]) j h rfl
      · exact d2 j (by simp [hj]) j h rfl
    -- places
    have glu : ∀ l2 : LSt X, goto P (c.lbl + 1) l2 =
        .run (.label (c.lbl + 1) :: (ku ++ .label (c.lbl + 1 + 1 + 1) ::
          (kj ++ .label (c.lbl + 1 + 1 + 1 + 1) :: post))) l2 :=
      fun l2 => goto_eq hU (by suf hs) l2
    have glk : ∀ l2 : LSt X, goto P (c.lbl + 1 + 1) l2 =
        .run (.label (c.lbl + 1 + 1) :: (kb ++ .label (c.lbl + 1) :: (ku ++ .label (c.lbl + 1 + 1 + 1) ::
          (kj ++ .label (c.lbl + 1 + 1 + 1 + 1) :: post)))) l2 :=
      fun l2 => goto_eq hU (by suf hs) l2
    have glc : ∀ l2 : LSt X, goto P (c.lbl + 1 + 1 + 1) l2 =
        .run (.label (c.lbl + 1 + 1 + 1) :: (kj ++ .label (c.lbl + 1 + 1 + 1 + 1) :: post)) l2 :=
      fun l2 => goto_eq hU (by suf hs) l2
    have gle : ∀ l2 : LSt X, goto P (c.lbl + 1 + 1 + 1 + 1) l2 =
        .run (.label (c.lbl + 1 + 1 + 1 + 1) :: post) l2 :=
      fun l2 => goto_eq hU (by suf hs) l2
    refine Arr.step ?_
    simp only [step, execS]
    have ii := (I.s _ i _ _ ki _ ct rt p ex' hi (hΓ.loop _ _) hg.1.1.1 hxi hpi hFi _ (by suf hs)
      σ l hR).unloop
    refine Arr.seq ii (Nat.le_refl _) (Fr.refl _ _ _) (Nat.le_refl _) (fun _ _ h => h) ?_
    rintro _ σ0 l1 cf hr0 hR0 hf0 ⟨rfl, _⟩
    have hf0 : Fr c.tmp ex' l l1 := hf0
    refine Arr.step ?_
    simp only [step]
    rw [glc]
    have key := simLoop (X := X) (P := P) (F := F) (Γ := Γ) (N := c.tmp) (ex := ex') (l0 := l) (p := p)
      (cond := evalE X F cnd ct) (body := execB X F b ct []) (upd := execS X F upd ct)
      (start := fun l2 => .run (.label (c.lbl + 1 + 1 + 1) :: (kj ++ .label (c.lbl + 1 + 1 + 1 + 1) :: post)) l2)
      (start' := fun l2 => .run (kj ++ .label (c.lbl + 1 + 1 + 1 + 1) :: post) l2)
      (bodyc := fun l2 => goto P (c.lbl + 1 + 1) l2)
      (updc := fun l2 => .run (.label (c.lbl + 1) :: (ku ++ .label (c.lbl + 1 + 1 + 1) ::
          (kj ++ .label (c.lbl + 1 + 1 + 1 + 1) :: post))) l2)
      (done := fun l2 => .run (.label (c.lbl + 1 + 1 + 1 + 1) :: post) l2)
      (fun l2 => Steps.one _ _) ?_ ?_ ?_ F (Nat.le_refl F) σ0 l1 hR0 hf0
    · refine Arr.post key ?_
      rintro a σ1 l1 cf hr1 hR1 hf1 rfl
      refine Arr.step ?_
      simp only [step]
      exact Arr.ret hR1 hf1 rfl
    · intro σ1 l1 hR1 hf1
      have ij := (I.j _ cnd _ false _ _ kj _ ct rt p hj ((hΓ.mono L3).loop _ _) hg.1.1.2 (by simp) hpc hFc _
        (by suf hs) σ1 l1 hR1).unloop
      exact ij.mono (Nat.le_refl _) hf1 L3 (by simp) (fun _ _ _ h => h)
    · intro σ1 l1 hR1 hf1
      simp only [glk]
      have ib := I.b _ b _ _ kb _ ct rt p ex' hb ((hΓ.mono L1).loop _ _) hg.2 hxb hpb hFb _ (by suf hs)
        σ1 l1 hR1
      have ib2 := Arr.step (k := .label (c.lbl + 1 + 1) :: (kb ++ .label (c.lbl + 1) ::
        (ku ++ .label (c.lbl + 1 + 1 + 1) :: (kj ++ .label (c.lbl + 1 + 1 + 1 + 1) :: post)))) ib
      refine Arr.loopBody (fun s hs => ⟨(hΓ.dep s hs).1, (hΓ.dep s hs).2.1⟩) ib2 hf1
        L1 ?_ glu gle
      rintro l2 cf ⟨rfl, _⟩
      rfl
    · intro σ1 l1 hR1 hf1
      refine Arr.step ?_
      simp only [step]
      have iu := (I.s _ upd _ _ ku _ ct rt p ex' hu ((hΓ.mono L2).loop _ _) hg.1.2 hxu hpu hFu _
        (by suf hs) σ1 l1 hR1).unloop
      exact iu.mono (Nat.le_refl _) hf1 L2 (fun _ _ h => h) (fun _ _ _ h => h.1)
  | brk =>
    simp only [linS] at h
    obtain ⟨lb, rest, hl, h1⟩ := bind_top.1 h
    obtain ⟨_, k1, c1, k2, hu, h2, rfl⟩ := bind_some.1 h1
    obtain ⟨rfl, rfl⟩ := emit_some.1 h2
    norm
    simp only [execS]
    have iu := I.u Γ _ _ _ k1 _ ct rt p hu hΓ (hΓ.sc.pending _ _) _ hs σ l hR
    refine Arr.exitOf (x := .brk) (p' := p) (iu.mono (Nat.le_refl _) (Fr.refl _ _ _) (Nat.le_refl _) (by simp)
      (fun _ _ _ h => h)) rfl rfl ?_
    intro l2 σ2 _ _ _
    refine ⟨⟨1, ?_⟩, trivial⟩
    simp only [exitCfg, hl, List.headD_cons]
    exact Steps.one _ _
  | cont =>
    simp only [linS] at h
    obtain ⟨lb, rest, hl, h1⟩ := bind_top.1 h
    obtain ⟨_, k1, c1, k2, hu, h2, rfl⟩ := bind_some.1 h1
    obtain ⟨rfl, rfl⟩ := emit_some.1 h2
    norm
    simp only [execS]
    have iu := I.u Γ _ _ _ k1 _ ct rt p hu hΓ (hΓ.sc.pending _ _) _ hs σ l hR
    refine Arr.exitOf (x := .cont) (p' := p) (iu.mono (Nat.le_refl _) (Fr.refl _ _ _) (Nat.le_refl _) (by simp)
      (fun _ _ _ h => h)) rfl rfl ?_
    intro l2 σ2 _ _ _
    refine ⟨⟨1, ?_⟩, trivial⟩
    simp only [exitCfg, hl, List.headD_cons]
    exact Steps.one _ _
  | retV =>
    simp only [linS] at h
    obtain ⟨_, k1, c1, k2, hu, h2, rfl⟩ := bind_some.1 h
    obtain ⟨rfl, rfl⟩ := emit_some.1 h2
    norm
    simp only [execS]
    have iu := I.u Γ _ _ _ k1 _ ct rt p hu hΓ hΓ.sc.pendingAll _ hs σ l hR
    refine Arr.exitOf (x := .retn none) (p' := p) (iu.mono (Nat.le_refl _) (Fr.refl _ _ _) (Nat.le_refl _)
      (by simp) (fun _ _ _ h => h)) rfl rfl ?_
    intro l2 σ2 _ _ _
    exact ⟨⟨2, Steps.head (Steps.one _ _)⟩, trivial⟩
  | retE e =>
    simp only [linS] at h
    simp only [goodS, Bool.and_eq_true] at hg
    simp only [idsS] at hF
    have hpe : p = none := hp.resolve_right (by simp [safeS])
    obtain ⟨_, k1, c1, k2, he, h1, rfl⟩ := bind_some.1 h
    obtain ⟨o, rfl, h2⟩ := bind_need.1 h1
    obtain ⟨_, k3, c2, k4, hu, h3, rfl⟩ := bind_some.1 h2
    obtain ⟨rfl, rfl⟩ := emit_some.1 h3
    norm
    simp only [execS]
    have S1 := ST.e Γ none rt e hΓ.sc hg.1 _ _ _ _ he
    obtain ⟨sh, ie⟩ := I.e Γ none e c _ k1 c1 ct rt p he hΓ TgtOk.none hg.1 (.inl hpe) hF
    refine Arr.seq (ie _ hs σ l hR) (Nat.le_refl _) (Fr.refl _ _ _) (Nat.le_refl _) (by simp) ?_
    rintro v σ1 l1 cf hr1 hR1 hf1 ⟨rfl, hv⟩
    have hv := hv o rfl
    have iu := I.u Γ _ _ _ k3 _ ct rt p hu (hΓ.mono S1.2.1) hΓ.sc.pendingAll _ (by suf hs) σ1 l1 hR1
    have iu2 : Arr F F P (.run (k3 ++ .retn (some o) :: .bal endL :: post) l1) c.tmp ex l p Γ
        (runAll X F (exitPend Γ (.retn (some v))) σ1)
        (fun _ l' cf => cf = .run (.retn (some o) :: .bal endL :: post) l' ∧ o.val l' = v) := by
      rw [← bind_id (runAll X F (exitPend Γ (.retn (some v))) σ1)]
      refine Arr.seq iu (Nat.le_refl _) (fr0 hf1 (Nat.le_refl _)) S1.2.1 (by simp) ?_
      rintro _ σ2 l2 cf hr2 hR2 hf2 rfl
      refine Arr.ret hR2 ((fr0 hf1 (Nat.le_refl _)).trans hf2 S1.2.1 (by simp)) ⟨rfl, ?_⟩
      rw [← hv]
      refine (sh.2 o rfl).keep hg.2 hR1 hR2 (fun x hx => ?_) hf2 (Nat.le_refl _)
      have := keep_runAll (X := X) (F := F) (ds := pendingAll Γ.scopes) (x := x) (v := σ1.vars x)
        (fun d hd hm => hx ((hΓ.sc.pendingAll d hd).2.2 x hm)) σ1 rfl
      have hr2' : runAll X F (pendingAll Γ.scopes) σ1 = .ok _ σ2 := hr2
      rw [hr2'] at this
      exact this
    show ExitArr F F P _ c.tmp ex l p Γ (.retn (some v)) σ1
    rw [exitArr_iff rfl]
    cases hr : runAll X F (exitPend Γ (.retn (some v))) σ1 with
    | ok a σ2 =>
      rw [hr] at iu2
      obtain ⟨m, cf, l2, e1, e2, e3, rfl, e5⟩ := iu2
      refine ⟨m + 2, l2, e1.trans (Steps.head (Steps.head ?_)), e2, e3, trivial⟩
      simp only [step, exitCfg, Option.map_some, e5]
      exact Steps.refl _
    | exit y σ2 =>
      rw [hr] at iu2
      cases y <;> first | exact iu2 | trivial
  | ret e =>
    simp only [linS] at h
    simp only [goodS, Bool.and_eq_true] at hg
    simp only [idsS] at hF
    have hpe : p = none := hp.resolve_right (by simp [safeS])
    have hhd : ∀ t ∈ hd Γ, t ∈ ex := hx.resolve_left (by simp [noRetS])
    obtain ⟨lb, rest, hl, h1⟩ := bind_top.1 h
    cases hrt : Γ.rtg with
    | nil => exact absurd hrt (hΓ.rt hg.1)
    | cons t ts =>
      rw [hrt] at h1
      obtain ⟨_, k1, c1, k2, he, h2, rfl⟩ := bind_some.1 h1
      obtain ⟨_, k3, c2, k4, hu, h3, rfl⟩ := bind_some.1 h2
      obtain ⟨rfl, rfl⟩ := emit_some.1 h3
      norm
      simp only [execS]
      have hTt : TgtOk t c.tmp := by
        intro t' ht'
        exact hΓ.rtg t' (by rw [hrt, ht']; simp)
      have hex : ∀ k, k < c.tmp → .tmp k ∈ t.toList → .tmp k ∈ ex := by
        intro k _ hm
        refine hhd _ ?_
        cases t with
        | none => simp at hm
        | some t' => simp only [Option.toList_some, List.mem_singleton] at hm; simp [hd, hrt, hm]
      have S1 := ST.e Γ t rt e hΓ.sc hg.2 _ _ _ _ he
      obtain ⟨ro, ie⟩ := I.e Γ t e c _ k1 c1 ct rt p he hΓ hTt hg.2 (.inl hpe) hF
      refine Arr.seq (ie _ hs σ l hR) (Nat.le_refl _) (Fr.refl _ _ _) (Nat.le_refl _) hex ?_
      rintro v σ1 l1 cf hr1 hR1 hf1 ⟨rfl, hv⟩
      have iu := I.u Γ _ _ _ k3 _ ct rt p hu (hΓ.mono S1.2.1) (hΓ.sc.pending _ _) _ (by suf hs) σ1 l1 hR1
      have hf1' : Fr c.tmp ex l l1 := hf1.weak (Nat.le_refl _) hex
      have iu2 : Arr F F P (.run (k3 ++ .bal lb :: post) l1) c.tmp ex l p Γ
          (runAll X F (exitPend Γ (.ret v)) σ1)
          (fun _ l' cf => cf = .run (.bal lb :: post) l' ∧ exitVal Γ l' (.ret v)) := by
        rw [← bind_id (runAll X F (exitPend Γ (.ret v)) σ1)]
        refine Arr.seq iu (Nat.le_refl _) hf1' S1.2.1 (by simp) ?_
        rintro _ σ2 l2 cf hr2 hR2 hf2 rfl
        refine Arr.ret hR2 (hf1'.trans hf2 S1.2.1 (by simp)) ⟨rfl, ?_⟩
        intro t' ht'
        have ht : t = some t' := by
          cases t with
          | none => simp [hd, hrt] at ht'
          | some t1 => simp [hd, hrt] at ht'; rw [ht']
        obtain ⟨j, hj, rfl⟩ := hTt t' ht
        rw [hf2 j (Nat.lt_of_lt_of_le hj S1.2.1) (by simp)]
        exact hv _ (ro.1 _ ht)
      show ExitArr F F P _ c.tmp ex l p Γ (.ret v) σ1
      rw [exitArr_iff rfl]
      cases hr : runAll X F (exitPend Γ (.ret v)) σ1 with
      | ok a σ2 =>
        rw [hr] at iu2
        obtain ⟨m, cf, l2, e1, e2, e3, rfl, e5⟩ := iu2
        refine ⟨m + 1, l2, e1.trans (Steps.head ?_), e2, e3, e5⟩
        simp only [step, exitCfg, hl, List.headD_cons]
        exact Steps.refl _
      | exit y σ2 =>
        rw [hr] at iu2
        cases y <;> first | exact iu2 | trivial
  | throw e =>
    simp only [linS] at h
    simp only [goodS] at hg
    simp only [idsS] at hF
    have hpe : p = none := hp.resolve_right (by simp [safeS])
    subst hpe
    obtain ⟨_, k1, c1, k2, he, h1, rfl⟩ := bind_some.1 h
    obtain ⟨o, rfl, h2⟩ := bind_need.1 h1
    have h3 := bind_freshT.1 h2
    obtain ⟨k3, h4, rfl⟩ := bind_emit.1 h3
    obtain ⟨_, k4, c2, k5, hu, h5, rfl⟩ := bind_some.1 h4
    obtain ⟨rfl, rfl⟩ := emit_some.1 h5
    norm
    simp only [execS]
    have S1 := ST.e Γ none rt e hΓ.sc hg _ _ _ _ he
    refine Arr.seq ((I.e Γ none e c _ k1 c1 ct rt none he hΓ TgtOk.none hg (.inl rfl) hF).2 _ hs σ l hR)
      (Nat.le_refl _) (Fr.refl _ _ _) (Nat.le_refl _) (by simp) ?_
    rintro v σ1 l1 cf hr1 hR1 hf1 ⟨rfl, hv⟩
    refine Arr.step ?_
    simp only [step]
    have hR2 := hR1.setT c1.tmp (o.val l1)
    refine Arr.step ?_
    rw [hv o rfl] at hR2 ⊢
    simp only [step, val_var, set_same]
    rw [show (l1.set (.tmp c1.tmp) v).err = none from hR2.err]
    simp only
    have hR3 : Rel (X := X) (some v) σ1 { (l1.set (.tmp c1.tmp) v) with err := some v } := by
      exact ⟨hR2.vars, hR2.w, rfl, hR2.rv⟩
    have fr : Fr c.tmp [] l { (l1.set (.tmp c1.tmp) v) with err := some v } := by
      have := hf1.set (t := .tmp c1.tmp) (fun k hk he => by cases he; exact absurd S1.2.1 (by omega)) v
      exact this
    have iu := I.u Γ _ _ _ k4 _ ct rt (some v) hu (hΓ.mono (Nat.le_succ_of_le S1.2.1)) hΓ.sc.pendingAll _
      (by suf hs) σ1 _ hR3
    refine Arr.exitOf (x := .thrown v) (p' := some v) (iu.mono (Nat.le_refl _) (fr0 fr (Nat.le_refl _))
      (Nat.le_succ_of_le S1.2.1) (by simp) (fun _ _ _ h => h)) rfl rfl ?_
    intro l2 σ2 hR4 _ _
    refine ⟨⟨2, Steps.head (Steps.head ?_)⟩, trivial⟩
    simp only [step, exitCfg, Option.map_none]
    have : ({ l2 with rv := none } : LSt X) = l2 := by rw [← hR4.rv]
    rw [this]
    exact Steps.refl _
  | defer d => simp [linS, fail] at h
  | «try» b x hh =>
    simp only [linS] at h
    simp only [goodS, Bool.and_eq_true] at hg
    simp only [idsS] at hF
    have hpb : p = none ∨ safeB pl b = true :=
      hp.imp id fun h => by simp only [safeS, Bool.and_eq_true] at h; exact h.1
    have h1 := bind_freshL.1 (bind_freshL.1 h)
    obtain ⟨_, k1, c1, k2, hb, h2, rfl⟩ := bind_some.1 h1
    obtain ⟨k3, h3, rfl⟩ := bind_emit.1 h2
    obtain ⟨_, k4, c2, k5, hc, h4, rfl⟩ := bind_some.1 h3
    obtain ⟨rfl, rfl⟩ := emit_some.1 h4
    norm
    simp only [execS]
    have S1 := ST.b { Γ with catches := c.lbl :: Γ.catches } rt b hΓ.sc hg.1 _ _ _ _ hb
    have L1 : c.tmp ≤ c1.tmp := S1.2.1
    have hle : ∀ l2 : LSt X, goto P (c.lbl + 1) l2 = .run (.label (c.lbl + 1) :: post) l2 :=
      fun l2 => goto_eq hU (by suf hs) l2
    -- the frame of the guarded block
    have key : ∀ ex', (noRetB b = true ∨ ∀ t ∈ hd Γ, t ∈ ex') →
        (∀ k, k < c.tmp → .tmp k ∈ ex' → .tmp k ∈ ex) → (noRetB b = true → ex' = []) →
        Arr F F P (.run (k1 ++ .bal (c.lbl + 1) :: .label c.lbl :: .removeErr (.src x) ::
            (k4 ++ .label (c.lbl + 1) :: post)) l) c.tmp ex l p Γ
          (match execB X F b true [] σ with
            | .exit (.err er) σ1 =>
              match execB X F hh ct [] (σ1.set x er) with
              | .exit (.ret _) σ2 => .exit .stuck σ2
              | r => r
            | r => r) (QS post (calmS (.try b x hh)) c.tmp l) := by
      intro ex' hxb hsub hnil
      have ib := I.b { Γ with catches := c.lbl :: Γ.catches } b _ _ k1 c1 true rt p ex' hb
        (hΓ.catch _) hg.1 hxb hpb ((hF.left).same rfl) _ hs σ l hR
      have cn : calmS (.try b x hh) = true → ex' = [] := fun h => by
        simp only [calmS, Bool.and_eq_true] at h
        exact hnil h.1
      cases hr : execB X F b true [] σ with
      | ok a σ1 =>
        rw [hr] at ib
        obtain ⟨m, cf, l1, e1, hR1, hf1, rfl, _⟩ := ib
        have hf1 : Fr c.tmp ex' l l1 := hf1
        refine Arr.steps e1 (Arr.step ?_)
        simp only [step]
        rw [hle]
        refine Arr.step ?_
        simp only [step]
        exact Arr.ret hR1 (hf1.weak (Nat.le_refl _) hsub) ⟨rfl, fun h => by rw [cn h] at hf1; exact hf1⟩
      | exit y σ1 =>
        rw [hr] at ib
        have other : (∀ er, y ≠ .err er) →
            Arr F F P (.run (k1 ++ .bal (c.lbl + 1) :: .label c.lbl :: .removeErr (.src x) ::
              (k4 ++ .label (c.lbl + 1) :: post)) l) c.tmp ex l p Γ (Res.exit y σ1)
              (QS post (calmS (.try b x hh)) c.tmp l) := by
          intro hy
          have := Arr.catch (Γ := Γ) ib (fun v σ' h => by cases h; exact hy _ rfl)
          have this : ExitArr F F P _ c.tmp ex' l p Γ y σ1 := this
          exact ExitArr.mono this (Nat.le_refl _) (Fr.refl _ _ _) (Nat.le_refl _) hsub
            (fun _ => rfl) (fun _ _ => rfl) (fun _ _ h => h)
        cases y with
        | err er =>
          have hpn : p = none := by
            rcases hpb with h | h
            · exact h
            · exact absurd hr (quietB hpl b h true [] σ (by simp)).noErr
          subst hpn
          obtain ⟨m, l1, e1, hR1, hf1⟩ := Arr.caught (fun s hs => (hΓ.dep s hs).2.2.2) ib
          have hf1 : Fr c.tmp ex' l l1 := hf1
          refine Arr.steps e1 ?_
          rw [goto_eq hU (k := .removeErr (.src x) :: (k4 ++ .label (c.lbl + 1) :: post)) (by suf hs)]
          refine Arr.step ?_
          simp only [step]
          refine Arr.step ?_
          simp only [step, hR1.err]
          have hR2 : Rel (X := X) none σ1 { l1 with err := none } := ⟨hR1.vars, hR1.w, rfl, hR1.rv⟩
          have hR3 := hR2.setS x er
          have fr3 : Fr c.tmp ex' l ({ l1 with err := none }.set (.src x) er) :=
            Fr.set (t := .src x) (l := { l1 with err := none }) hf1 (by simp) er
          have hΓh : CtxOk pl A { Γ with rets := (c.lbl + 1) :: Γ.rets } c1.tmp ct rt := by
            have h0 := hΓ.mono L1
            refine ⟨h0.ct, h0.rt, h0.rtg, h0.sc, fun s hs => ?_⟩
            have := h0.dep s hs
            simp only [List.length_cons]
            omega
          have ih := I.b { Γ with rets := (c.lbl + 1) :: Γ.rets } hh c1 _ k4 c' ct rt none ex hc hΓh hg.2
            (hx.imp (fun h => by simp only [noRetS, Bool.and_eq_true] at h; exact h.2) id) (.inl rfl)
            (Fresh.right (hF.same (c' := { lbl := c.lbl + 1 + 1, tmp := c.tmp, seen := c.seen }) rfl) S1.2.2.2)
            _ (by suf hs) _ _ hR3
          cases hr2 : execB X F hh ct [] (σ1.set x er) with
          | ok a σ2 =>
            rw [hr2] at ih
            obtain ⟨m2, cf, l2, e2, hR4, hf4, rfl, hcalm⟩ := ih
            refine Arr.steps e2 (Arr.step ?_)
            simp only [step]
            refine Arr.ret hR4 ((fr3.weak (Nat.le_refl _) hsub).trans hf4 L1 (fun _ _ h => h))
              ⟨rfl, fun h => ?_⟩
            rw [cn h] at fr3
            simp only [calmS, Bool.and_eq_true] at h
            exact fr3.trans (hcalm h.2) L1 (by simp)
          | exit z σ2 =>
            rw [hr2] at ih
            have ih : ExitArr F F P _ c1.tmp ex _ none { Γ with rets := (c.lbl + 1) :: Γ.rets } z σ2 := ih
            cases z with
            | ret v => trivial
            | _ =>
              exact ExitArr.mono ih (Nat.le_refl _) (fr3.weak (Nat.le_refl _) hsub) L1 (fun _ _ h => h)
                (fun _ => rfl) (fun _ _ => rfl) (fun _ _ h => h)
        | _ => exact other (by simp)
    by_cases hn : noRetB b = true
    · exact key [] (.inl hn) (by simp) (fun _ => rfl)
    · exact key ex (.inr (hx.resolve_left (by simp [noRetS, hn]))) (fun _ _ h => h) (fun h => absurd h hn)

/-! ## Blocks -/

theorem simB (I : Sim X F P pl A n) :
    ∀ Γ b c u k c' ct rt p ex, linB (n + 1) Γ b c = some (u, k, c') →
    CtxOk pl A Γ c.tmp ct rt → goodB pl A rt b = true →
    (noRetB b = true ∨ ∀ t ∈ hd Γ, t ∈ ex) →
    (p = none ∨ safeB pl b = true) → Fresh (idsB b) c → ∀ post, (k ++ post) <:+ P →
    ∀ (σ : St X) l, Rel p σ l →
    Arr F F P (.run (k ++ post) l) c.tmp ex l p Γ (execB X F b ct [] σ) (QS post (calmB b) c.tmp l) := by
  intro Γ b c u k c' ct rt p ex h hΓ hg hx hp hF post hs σ l hR
  simp only [linB] at h
  exact I.l Γ (Scope.new Γ) b c u k c' ct rt p ex h hΓ (by intro d hd; simp [Scope.new] at hd)
    ⟨rfl, rfl, rfl, rfl⟩ hg hx hp hF post hs σ l hR

theorem linL_cons (s : Stmt) (hnd : ∀ d, s ≠ .defer d) (rest : Body) (n : Nat) (Γ : Ctx) :
    linL (n + 1) Γ (.cons s rest) = (do linS n Γ s; linL n Γ rest) := by
  cases s <;> first | (exact absurd rfl (hnd _)) | (simp only [linL])

/-- Leaving a scope: its deferred blocks run before those outside. -/
theorem exitPend_scope {Γ : Ctx} {s : Scope} {x : Exit}
    (hs : s.cd = Γ.conts.length ∧ s.bd = Γ.brks.length ∧ s.rd = Γ.rets.length ∧
      s.kd = Γ.catches.length) (hx : x.final = false) :
    exitPend { Γ with scopes := s :: Γ.scopes } x = s.defers ++ exitPend Γ x := by
  obtain ⟨h1, h2, h3, h4⟩ := hs
  cases x with
  | brk => exact pending_cons (f := (·.bd)) h2
  | cont => exact pending_cons (f := (·.cd)) h1
  | ret v => exact pending_cons (f := (·.rd)) h3
  | retn v => rfl
  | thrown v => rfl
  | err v => exact pending_cons (f := (·.kd)) h4
  | _ => cases hx

theorem exitCfg_scope {Γ : Ctx} {ss : List Scope} {x : Exit} (l : LSt X) :
    exitCfg P { Γ with scopes := ss } l x = exitCfg P Γ l x := by
  cases x <;> rfl

theorem exitVal_scope {Γ : Ctx} {ss : List Scope} {x : Exit} (l : LSt X) :
    exitVal { Γ with scopes := ss } l x = exitVal Γ l x := by
  cases x <;> rfl

theorem simL (hpl : ∀ f, pl f = true → Insensitive X f) (I : Sim X F P pl A n) :
    ∀ Γ s b c u k c' ct rt p ex,
    linL (n + 1) { Γ with scopes := s :: Γ.scopes } b c = some (u, k, c') →
    CtxOk pl A Γ c.tmp ct rt → DefOk pl A s.defers →
    (s.cd = Γ.conts.length ∧ s.bd = Γ.brks.length ∧ s.rd = Γ.rets.length ∧
      s.kd = Γ.catches.length) → goodB pl A rt b = true →
    (noRetB b = true ∨ ∀ t ∈ hd Γ, t ∈ ex) →
    (p = none ∨ safeB pl b = true) → Fresh (idsB b) c → ∀ post, (k ++ post) <:+ P →
    ∀ (σ : St X) l, Rel p σ l →
    Arr F F P (.run (k ++ post) l) c.tmp ex l p Γ (execB X F b ct (clos X F ct s.defers) σ)
      (QS post (calmB b) c.tmp l) := by
  intro Γ s b c u k c' ct rt p ex h hΓ hD hsd hg hx hp hF post hs σ l hR
  have ST := stat (pl := pl) (A := A) n
  have hsafe : ∀ d ∈ s.defers, safeB pl d = true := fun d hd => (hD d hd).1
  cases b with
  | nil =>
    simp only [linL] at h
    simp only [execB]
    rw [leave_ok hpl ct hsafe]
    have iu := I.u Γ s.defers c u k c' ct rt p h hΓ hD post hs σ l hR
    have := Arr.post (Q := QS post (calmB .nil) c.tmp l) iu
      (fun a σ1 l1 cf hr hR1 hf hq => Arr.ret hR1 hf ⟨hq, fun _ => hf⟩)
    exact this.mono (Nat.le_refl _) (Fr.refl _ _ _) (Nat.le_refl _) (by simp) (fun _ _ _ h => h)
  | cons s0 rest =>
    simp only [goodB, Bool.and_eq_true] at hg
    simp only [idsB] at hF
    have hxs : noRetS s0 = true ∨ ∀ t ∈ hd Γ, t ∈ ex :=
      hx.imp (fun h => by simp only [noRetB, Bool.and_eq_true] at h; exact h.1) id
    have hxr : noRetB rest = true ∨ ∀ t ∈ hd Γ, t ∈ ex :=
      hx.imp (fun h => by simp only [noRetB, Bool.and_eq_true] at h; exact h.2) id
    have hps : p = none ∨ safeS pl s0 = true :=
      hp.imp id fun h => by simp only [safeB, Bool.and_eq_true] at h; exact h.1
    have hpr : p = none ∨ safeB pl rest = true :=
      hp.imp id fun h => by simp only [safeB, Bool.and_eq_true] at h; exact h.2
    by_cases hdf : ∃ d, s0 = .defer d
    · obtain ⟨d, rfl⟩ := hdf
      simp only [linL, register] at h
      simp only [execB]
      have hd := DefOk.of_good hg.1
      have := I.l Γ { s with defers := d :: s.defers } rest c u k c' ct rt p ex h hΓ
        (by
          intro d' hd'
          rcases List.mem_cons.1 hd' with hd' | hd'
          · subst hd'; exact hd
          · exact hD d' hd') hsd hg.2 hxr hpr (hF.right (c' := c) (fun i hi => .inl hi)) post hs σ l hR
      exact this.mono (Nat.le_refl _) (Fr.refl _ _ _) (Nat.le_refl _) (fun _ _ h => h)
        (fun _ _ _ h => ⟨h.1, fun hc => h.2 (by simp only [calmB, Bool.and_eq_true] at hc; exact hc.2)⟩)
    · have hnd : ∀ d, s0 ≠ .defer d := fun d e => hdf ⟨d, e⟩
      rw [linL_cons s0 hnd] at h
      rw [execB_cons s0 hnd]
      obtain ⟨_, k1, c1, k2, h1, h2, rfl⟩ := bind_some.1 h
      norm
      have hΓs : CtxOk pl A { Γ with scopes := s :: Γ.scopes } c.tmp ct rt := by
        refine ⟨hΓ.ct, hΓ.rt, hΓ.rtg, ?_, ?_⟩
        · intro s' hs'
          rcases List.mem_cons.1 hs' with hs' | hs'
          · subst hs'; exact hD
          · exact hΓ.sc s' hs'
        · intro s' hs'
          rcases List.mem_cons.1 hs' with hs' | hs'
          · subst hs'
            exact ⟨Nat.le_of_eq hsd.1, Nat.le_of_eq hsd.2.1, Nat.le_of_eq hsd.2.2.1, Nat.le_of_eq hsd.2.2.2⟩
          · exact hΓ.dep s' hs'
      have S1 := ST.s { Γ with scopes := s :: Γ.scopes } rt s0 hΓs.sc hg.1 _ _ _ _ h1
      have is := I.s { Γ with scopes := s :: Γ.scopes } s0 c _ k1 c1 ct rt p ex h1 hΓs hg.1 hxs hps hF.left _
        hs σ l hR
      cases hr : execS X F s0 ct σ with
      | ok a σ1 =>
        rw [hr] at is
        obtain ⟨m, cf, l1, e1, hR1, hf1, rfl, hc1⟩ := is
        refine Arr.steps e1 ?_
        have il := I.l Γ s rest c1 u k2 c' ct rt p ex h2 (hΓ.mono S1.2.1) hD hsd hg.2 hxr hpr
          (hF.right S1.2.2.2) post (by suf hs) σ1 l1 hR1
        simp only
        rw [← bind_id (execB X F rest ct (clos X F ct s.defers) σ1)]
        refine Arr.seq il (Nat.le_refl _) hf1 S1.2.1 (fun _ _ h => h) ?_
        rintro _ σ2 l2 cf hr2 hR2 hf2 ⟨rfl, hc2⟩
        refine Arr.ret hR2 (hf1.trans hf2 S1.2.1 (fun _ _ h => h)) ⟨rfl, fun hc => ?_⟩
        simp only [calmB, Bool.and_eq_true] at hc
        exact (hc1 hc.1).trans (hc2 hc.2) S1.2.1 (by simp)
      | exit x σ1 =>
        rw [hr] at is
        have is : ExitArr F F P _ c.tmp ex l p { Γ with scopes := s :: Γ.scopes } x σ1 := is
        simp only
        cases hfin : x.final with
        | true =>
          rw [leave_final _ hfin]
          exact ExitArr.mono is (Nat.le_refl _) (Fr.refl _ _ _) (Nat.le_refl _) (fun _ _ h => h)
            (fun h => by rw [hfin] at h; cases h) (fun h => by rw [hfin] at h; cases h)
            (fun h => by rw [hfin] at h; cases h)
        | false =>
          rw [leave_exit hpl ct hsafe hfin]
          rw [exitArr_iff hfin, exitPend_scope hsd hfin, runAll_append] at is
          have hq := quiet_runAll (F := F) hpl hsafe σ1
          cases hr2 : runAll X F s.defers σ1 with
          | ok a σ2 =>
            rw [hr2] at is
            show ExitArr F F P _ c.tmp ex l p Γ x σ2
            rw [exitArr_iff hfin]
            simp only [Res.bind, exitCfg_scope, exitVal_scope] at is
            exact is
          | exit y σ2 =>
            rw [hr2] at is hq
            rcases hq with rfl | rfl
            · exact is
            · trivial

theorem simU (I : Sim X F P pl A n) :
    ∀ Γ ds c u k c' ct rt p, unw (n + 1) Γ ds c = some (u, k, c') →
    CtxOk pl A Γ c.tmp ct rt → DefOk pl A ds → ∀ post, (k ++ post) <:+ P →
    ∀ (σ : St X) l, Rel p σ l →
    Arr F F P (.run (k ++ post) l) c.tmp [] l p Γ (runAll X F ds σ)
      (fun _ l' cf => cf = .run post l') := by
  intro Γ ds c u k c' ct rt p h hΓ hD post hs σ l hR
  cases ds with
  | nil =>
    simp only [unw] at h
    obtain ⟨_, rfl, rfl⟩ := pure_some.1 h
    exact Arr.ret hR (Fr.refl _ _ _) rfl
  | cons d ds =>
    simp only [unw] at h
    obtain ⟨_, k1, c1, k2, h1, h2, rfl⟩ := bind_some.1 h
    norm
    obtain ⟨d1, d2, d3⟩ := hD d (by simp)
    have S1 := (stat (pl := pl) (A := A) n).b Γ false d hΓ.sc d2 _ _ _ _ h1
    have hΓ' : CtxOk pl A Γ c.tmp ct false := ⟨hΓ.ct, by simp, hΓ.rtg, hΓ.sc, hΓ.dep⟩
    have ib := I.b Γ d c _ k1 c1 ct false p [] h1 hΓ' d2 (.inl (safe_noRetB d d1)) (.inr d1)
      (by rw [safe_idsB d d1]; exact Fresh.nil c) _ hs σ l hR
    simp only [runAll]
    rw [ctB d d1 ct false] at ib
    refine Arr.seq ib (Nat.le_refl _) (Fr.refl _ _ _) (Nat.le_refl _) (by simp) ?_
    rintro _ σ1 l1 cf hr1 hR1 hf1 ⟨rfl, _⟩
    exact (I.u Γ ds c1 u k2 c' ct rt p h2 (hΓ.mono S1.2.1) (fun d' hd' => hD d' (List.mem_cons_of_mem _ hd'))
      post (by suf hs) σ1 l1 hR1).mono (Nat.le_refl _) hf1 S1.2.1 (by simp) (fun _ _ _ h => h)

/-- The compiler does what the source says. -/
theorem sim (hU : Uniq P) (hpl : ∀ f, pl f = true → Insensitive X f) (n : Nat) : Sim X F P pl A n := by
  induction n using Nat.strongRecOn with
  | _ n ih =>
    cases n with
    | zero =>
      constructor <;> intros <;> exfalso <;>
        simp only [linE, linA, linK, linC, linJ, linS, linB, linL, unw, fail, reduceCtorEq] at *
    | succ n =>
      have ih' : ∀ m, m ≤ n → Sim X F P pl A m := fun m hm => ih m (Nat.lt_succ_of_le hm)
      have I := ih' n (Nat.le_refl n)
      exact ⟨simE hU hpl ih', simA I, simK ih', simC hU I, simJ I, simS hU hpl I, simB I, simL hpl I, simU I⟩

end Nature.Linear
