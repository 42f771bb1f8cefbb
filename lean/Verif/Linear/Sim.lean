import Verif.Linear.Arrive

/-! # The statements of the simulation, and lemmas about single steps -/
namespace Nature.Linear

open Spec

/-! ## Taking the compiler apart, shorter -/

theorem bind_emit {β} {k0 : List Instr} {f : Unit → M β} {c : CSt} {b : β} {k : List Instr}
    {c' : CSt} : (emit k0 >>= f) c = some (b, k, c') ↔
      ∃ k2, f () c = some (b, k2, c') ∧ k = k0 ++ k2 := by
  rw [bind_some]
  constructor
  · rintro ⟨a, k1, c1, k2, h1, h2, h3⟩
    obtain ⟨rfl, rfl⟩ := emit_some.1 h1
    exact ⟨k2, h2, h3⟩
  · rintro ⟨k2, h2, h3⟩
    exact ⟨(), k0, c, k2, rfl, h2, h3⟩

theorem bind_freshL {β} {f : Nat → M β} {c : CSt} {x} :
    (freshL >>= f) c = some x ↔ f c.lbl { c with lbl := c.lbl + 1 } = some x := by
  obtain ⟨b, k, c'⟩ := x
  rw [bind_some]
  constructor
  · rintro ⟨a, k1, c1, k2, h1, h2, rfl⟩
    obtain ⟨rfl, rfl, rfl⟩ := freshL_some.1 h1
    exact h2
  · intro h
    exact ⟨_, _, _, k, freshL_some.2 ⟨rfl, rfl, rfl⟩, h, rfl⟩

theorem bind_freshT {β} {f : Name → M β} {c : CSt} {x} :
    (freshT >>= f) c = some x ↔ f (.tmp c.tmp) { c with tmp := c.tmp + 1 } = some x := by
  obtain ⟨b, k, c'⟩ := x
  rw [bind_some]
  constructor
  · rintro ⟨a, k1, c1, k2, h1, h2, rfl⟩
    obtain ⟨rfl, rfl, rfl⟩ := freshT_some.1 h1
    exact h2
  · intro h
    exact ⟨_, _, _, k, freshT_some.2 ⟨rfl, rfl, rfl⟩, h, rfl⟩

theorem bind_need {β} {r : Option Opd} {f : Opd → M β} {c : CSt} {x} :
    (need r >>= f) c = some x ↔ ∃ o, r = some o ∧ f o c = some x := by
  obtain ⟨b, k, c'⟩ := x
  rw [bind_some]
  constructor
  · rintro ⟨a, k1, c1, k2, h1, h2, rfl⟩
    cases r with
    | none => simp [need, fail] at h1
    | some o =>
      obtain ⟨rfl, rfl, rfl⟩ := pure_some.1 h1
      exact ⟨_, rfl, h2⟩
  · rintro ⟨o, rfl, h⟩
    exact ⟨o, [], c, k, rfl, h, rfl⟩

theorem bind_top {β} {r : List Nat} {f : Nat → M β} {c : CSt} {x} :
    (top r >>= f) c = some x ↔ ∃ o rest, r = o :: rest ∧ f o c = some x := by
  obtain ⟨b, k, c'⟩ := x
  rw [bind_some]
  constructor
  · rintro ⟨a, k1, c1, k2, h1, h2, rfl⟩
    cases r with
    | nil => simp [top, fail] at h1
    | cons o rest =>
      obtain ⟨rfl, rfl, rfl⟩ := pure_some.1 h1
      exact ⟨_, _, rfl, h2⟩
  · rintro ⟨o, rest, rfl, h⟩
    exact ⟨o, [], c, k, rfl, h, rfl⟩

/-- What `target` chooses. -/
structure TF (tgt : Option Name) (t : Name) (c c1 : CSt) : Prop where
  name : ∃ j, t = .tmp j ∧ j < c1.tmp
  own : ∀ k, k < c.tmp → .tmp k = t → .tmp k ∈ tgt.toList
  le : c.tmp ≤ c1.tmp
  seen : c1.seen = c.seen
  shape : tgt = some t ∨ tgt = none ∧ ∃ j, t = .tmp j ∧ c.tmp ≤ j ∧ j < c1.tmp

theorem bind_target {β} {tgt : Option Name} {f : Name → M β} {c : CSt} {x}
    (hT : TgtOk tgt c.tmp) (h : (target tgt >>= f) c = some x) :
    ∃ t c1, TF tgt t c c1 ∧ f t c1 = some x := by
  cases tgt with
  | none =>
    have h := bind_freshT.1 h
    refine ⟨.tmp c.tmp, { c with tmp := c.tmp + 1 }, ⟨⟨c.tmp, rfl, ?_⟩, ?_, ?_, rfl, .inr ⟨rfl, c.tmp, rfl, Nat.le_refl _, ?_⟩⟩, h⟩
    · simp
    · intro k hk he
      cases he
      omega
    · simp
    · simp
  | some t =>
    obtain ⟨b, k, c'⟩ := x
    obtain ⟨a, k1, c1, k2, h1, h2, rfl⟩ := bind_some.1 h
    obtain ⟨rfl, rfl, rfl⟩ := pure_some.1 h1
    obtain ⟨j, hj, rfl⟩ := hT _ rfl
    exact ⟨_, _, ⟨⟨j, rfl, hj⟩, fun k hk he => by simp [he], Nat.le_refl _, rfl, .inl rfl⟩, h2⟩

/-! ## Suffixes -/

theorem sfx_append {x a b : List Instr} (h : x <:+ b) : x <:+ a ++ b :=
  h.trans (List.suffix_append a b)

theorem sfx_cons {x b : List Instr} {i : Instr} (h : x <:+ b) : x <:+ i :: b :=
  h.trans (List.suffix_cons i b)

/-- A part of the program `h` talks about. -/
macro "suf" h:term : tactic =>
  `(tactic| (refine List.IsSuffix.trans ?_ $h
             repeat first | exact List.suffix_rfl | apply sfx_append | apply sfx_cons))

/-- Normal form of concatenations. -/
macro "norm" : tactic =>
  `(tactic| simp only [List.append_assoc, List.cons_append, List.nil_append, List.append_nil] at *)

variable {X : Ext} {P : List Instr} {F : Nat} {pl : Nat → Bool} {A : List Nat}

/-! ## Assigning temporaries -/

theorem set_same (l : LSt X) (x : Name) (v : Val) : (l.set x v).env x = v := by simp [LSt.set]

theorem set_ne (l : LSt X) {x y : Name} (v : Val) (h : y ≠ x) : (l.set x v).env y = l.env y := by
  simp [LSt.set, h]

theorem Rel.setT {p : Option Val} {σ : St X} {l : LSt X} (h : Rel p σ l) (j : Nat) (v : Val) :
    Rel p σ (l.set (.tmp j) v) :=
  ⟨fun x => by rw [set_ne _ _ (by simp)]; exact h.vars x, h.w, h.err, h.rv⟩

theorem Rel.setS {p : Option Val} {σ : St X} {l : LSt X} (h : Rel p σ l) (x : Nat) (v : Val) :
    Rel p (σ.set x v) (l.set (.src x) v) := by
  refine ⟨fun y => ?_, h.w, h.err, h.rv⟩
  simp only [LSt.set, St.set, Name.src.injEq]
  split
  · rfl
  · exact h.vars y

theorem Fr.set {N : Nat} {ex : List Name} {l0 l : LSt X} {t : Name} (h : Fr N ex l0 l)
    (ho : ∀ k, k < N → .tmp k = t → .tmp k ∈ ex) (v : Val) : Fr N ex l0 (l.set t v) := by
  intro k hk hn
  rw [set_ne]
  · exact h k hk hn
  · intro e
    exact hn (ho k hk e)

theorem Fr.weak {N N' : Nat} {ex ex' : List Name} {l0 l : LSt X} (h : Fr N' ex' l0 l)
    (hN : N ≤ N') (hex : ∀ k, k < N → .tmp k ∈ ex' → .tmp k ∈ ex) : Fr N ex l0 l :=
  (Fr.refl N ex l0).trans h hN hex

theorem beq_bool (x y : Bool) : cmpVal X .s .ee (.b x) (.b y) = (x == y) := by
  cases x <;> cases y <;> rfl

/-! ## Operands -/

/-- Where the result of an expression is. -/
inductive Shape (tgt : Option Name) (e : Expr) (c c' : CSt) : Opd → Prop
  | tgt {t} : tgt = some t → Shape tgt e c c' (.var t)
  | imm {v} : Shape tgt e c c' (.imm v)
  | src {x} : e = .var (.src x) → Shape tgt e c c' (.var (.src x))
  | tmp {j} : c.tmp ≤ j → j < c'.tmp → Shape tgt e c c' (.var (.tmp j))

/-- The result of an expression with a target is the target. -/
def ROk (tgt : Option Name) (e : Expr) (c c' : CSt) (r : Option Opd) : Prop :=
  (∀ t, tgt = some t → r = some (.var t)) ∧ ∀ o, r = some o → Shape tgt e c c' o

theorem Shape.keep {e : Expr} {c c' : CSt} {o : Opd} (h : Shape none e c c' o) {later : List Nat}
    (hk : keeps e later = true) {p p' : Option Val} {σ σ' : St X} {l l' : LSt X} (hR : Rel p σ l)
    (hR' : Rel p' σ' l') (hv : ∀ x, x ∉ later → σ'.vars x = σ.vars x) {N : Nat}
    (hf : Fr N [] l l') (hN : c'.tmp ≤ N) : o.val l' = o.val l := by
  cases h with
  | tgt h => cases h
  | imm => rfl
  | @src x he =>
    subst he
    simp only [keeps, Bool.not_eq_true', List.contains_eq_mem, decide_eq_false_iff_not] at hk
    show l'.env _ = l.env _
    rw [hR.vars, hR'.vars, hv x hk]
  | tmp h1 h2 => exact hf _ (by omega) (by simp)

/-! ## What each function of the compiler is for -/

/-- The value of an expression is in its operand. -/
def QE (r : Option Opd) (post : List Instr) (v : Val) (l : LSt X) (c : Cfg X) : Prop :=
  c = .run post l ∧ ∀ o, r = some o → o.val l = v

def QS (post : List Instr) (calm : Bool) (N : Nat) (l0 : LSt X) (_ : Unit) (l : LSt X) (c : Cfg X) :
    Prop :=
  c = .run post l ∧ (calm = true → Fr N [] l0 l)

/-- A context inside a `match` or `catch`. -/
abbrev Ctx.block (Γ : Ctx) (le : Nat) (tg : Option Name) : Ctx :=
  { Γ with rets := le :: Γ.rets, rtg := tg :: Γ.rtg }

/-- The subject of a `match` is in its temporary. -/
def SubOk (N : Nat) (ex : List Name) (l : LSt X) :
    Option (Kind × List Nat) → Option (Kind × Val) → Prop
  | none, none => True
  | some (k, [s]), some (k', v) => k = k' ∧ s < N ∧ .tmp s ∉ ex ∧ l.env (.tmp s) = v
  | _, _ => False

/-- All of the compiler at recursion bound `n` does what the source says. -/
structure Sim (X : Ext) (F : Nat) (P : List Instr) (pl : Nat → Bool) (A : List Nat) (n : Nat) :
    Prop where
  e : ∀ Γ tgt e c r k c' ct rt p, linE n Γ tgt e c = some (r, k, c') →
    CtxOk pl A Γ c.tmp ct rt → TgtOk tgt c.tmp → goodE pl A rt e = true →
    (p = none ∨ safeE pl e = true) → Fresh (idsE e) c →
    ROk tgt e c c' r ∧ ∀ post, (k ++ post) <:+ P →
    ∀ (σ : St X) l, Rel p σ l →
    Arr F F P (.run (k ++ post) l) c.tmp tgt.toList l p Γ (evalE X F e ct σ) (QE r post)
  a : ∀ Γ a c r k c' ct rt p, linA n Γ a c = some (r, k, c') →
    CtxOk pl A Γ c.tmp ct rt → goodA pl A rt a = true →
    (p = none ∨ safeA pl a = true) → Fresh (idsA a) c → ∀ post, (k ++ post) <:+ P →
    ∀ (σ : St X) l, Rel p σ l →
    Arr F F P (.run (k ++ post) l) c.tmp [] l p Γ (evalA X F a ct σ)
      (fun vs l' cf => cf = .run post l' ∧ r.map (·.val l') = vs)
  k : ∀ Γ a sub vsub lh c u k c' ct p, linK n Γ sub lh a c = some (u, k, c') →
    CtxOk pl A Γ c.tmp ct true → goodK pl A a = true →
    (p = none ∨ safeA pl a = true) → Fresh (idsA a) c → ∀ post, (k ++ post) <:+ P →
    ∀ (σ : St X) l, Rel p σ l → SubOk c.tmp [] l sub vsub →
    Arr F F P (.run (k ++ post) l) c.tmp [] l p Γ (anyHolds X F a vsub ct σ)
      (fun t l' cf => cf = if t then goto P lh l' else .run post l')
  c : ∀ Γ tg le cs sub vsub c u k c' ct rt p, linC n (Γ.block le tg) sub le cs c = some (u, k, c') →
    CtxOk pl A Γ c.tmp ct rt → TgtOk tg c.tmp → goodC pl A cs = true →
    (p = none ∨ safeC pl cs = true) → Fresh (idsC cs) c → ∀ post, (k ++ post) <:+ P →
    ∀ (σ : St X) l, Rel p σ l → SubOk c.tmp tg.toList l sub vsub →
    Arr F F P (.run (k ++ post) l) c.tmp tg.toList l p Γ (evalC X F cs vsub tg.isNone ct σ)
      (fun v l' cf => cf = goto P le l' ∧ ∀ t, tg = some t → l'.env t = v)
  j : ∀ Γ e t i c u k c' ct rt p, linJ n Γ e t i c = some (u, k, c') →
    CtxOk pl A Γ c.tmp ct rt → goodE pl A rt e = true → (i = true → fltJump e = false) →
    (p = none ∨ safeE pl e = true) → Fresh (idsE e) c → ∀ post, (k ++ post) <:+ P →
    ∀ (σ : St X) l, Rel p σ l →
    Arr F F P (.run (k ++ post) l) c.tmp [] l p Γ (evalE X F e ct σ)
      (fun v l' cf => ∀ b, v = .b b → cf = if b = i then .run post l' else goto P t l')
  s : ∀ Γ s c u k c' ct rt p ex, linS n Γ s c = some (u, k, c') →
    CtxOk pl A Γ c.tmp ct rt → goodS pl A rt s = true →
    (noRetS s = true ∨ ∀ t ∈ hd Γ, t ∈ ex) →
    (p = none ∨ safeS pl s = true) → Fresh (idsS s) c → ∀ post, (k ++ post) <:+ P →
    ∀ (σ : St X) l, Rel p σ l →
    Arr F F P (.run (k ++ post) l) c.tmp ex l p Γ (execS X F s ct σ) (QS post (calmS s) c.tmp l)
  b : ∀ Γ b c u k c' ct rt p ex, linB n Γ b c = some (u, k, c') →
    CtxOk pl A Γ c.tmp ct rt → goodB pl A rt b = true →
    (noRetB b = true ∨ ∀ t ∈ hd Γ, t ∈ ex) →
    (p = none ∨ safeB pl b = true) → Fresh (idsB b) c → ∀ post, (k ++ post) <:+ P →
    ∀ (σ : St X) l, Rel p σ l →
    Arr F F P (.run (k ++ post) l) c.tmp ex l p Γ (execB X F b ct [] σ) (QS post (calmB b) c.tmp l)
  l : ∀ Γ s b c u k c' ct rt p ex,
    linL n { Γ with scopes := s :: Γ.scopes } b c = some (u, k, c') →
    CtxOk pl A Γ c.tmp ct rt → DefOk pl A s.defers →
    (s.cd = Γ.conts.length ∧ s.bd = Γ.brks.length ∧ s.rd = Γ.rets.length ∧
      s.kd = Γ.catches.length) → goodB pl A rt b = true →
    (noRetB b = true ∨ ∀ t ∈ hd Γ, t ∈ ex) →
    (p = none ∨ safeB pl b = true) → Fresh (idsB b) c → ∀ post, (k ++ post) <:+ P →
    ∀ (σ : St X) l, Rel p σ l →
    Arr F F P (.run (k ++ post) l) c.tmp ex l p Γ (execB X F b ct (clos X F ct s.defers) σ)
      (QS post (calmB b) c.tmp l)
  u : ∀ Γ ds c u k c' ct rt p, unw n Γ ds c = some (u, k, c') →
    CtxOk pl A Γ c.tmp ct rt → DefOk pl A ds → ∀ post, (k ++ post) <:+ P →
    ∀ (σ : St X) l, Rel p σ l →
    Arr F F P (.run (k ++ post) l) c.tmp [] l p Γ (runAll X F ds σ)
      (fun _ l' cf => cf = .run post l')

/-! ## Leaving through deferred blocks -/

theorem exitArr_iff {B N : Nat} {ex : List Name} {l0 : LSt X} {p : Option Val} {Γ : Ctx}
    {s : Cfg X} {x : Exit} {σ : St X} (hx : x.final = false) :
    ExitArr F B P s N ex l0 p Γ x σ ↔
    (match runAll X F (exitPend Γ x) σ with
    | .ok _ σ2 => ∃ m l, Steps X P m s (exitCfg P Γ l x) ∧ Rel (exitErr p x) σ2 l ∧
        Fr N ex l0 l ∧ exitVal Γ l x
    | .exit .timeout _ => ∃ m c, Steps X P m s c ∧ B ≤ m
    | .exit _ _ => True) := by
  cases x <;> first | (cases hx; done) | exact Iff.rfl

/-- The deferred blocks have been emitted; after them, LIR goes where the exit leads. -/
theorem Arr.exitOf {α : Type} {B N : Nat} {ex : List Name} {l0 : LSt X} {p p' : Option Val} {Γ : Ctx}
    {s : Cfg X} {x : Exit} {σ : St X} {post : List Instr}
    {Q : α → LSt X → Cfg X → Prop}
    (h : Arr F B P s N ex l0 p' Γ (runAll X F (exitPend Γ x) σ) (fun _ l c => c = .run post l))
    (hp : p' = exitErr p x) (hx : x.final = false)
    (hs : ∀ l σ2, Rel p' σ2 l → Fr N ex l0 l → runAll X F (exitPend Γ x) σ = .ok () σ2 →
      (∃ m, Steps X P m (.run post l) (exitCfg P Γ l x)) ∧ exitVal Γ l x) :
    Arr F B P s N ex l0 p Γ (.exit x σ) Q := by
  show ExitArr F B P s N ex l0 p Γ x σ
  rw [exitArr_iff hx]
  cases hr : runAll X F (exitPend Γ x) σ with
  | ok a σ2 =>
    rw [hr] at h
    obtain ⟨m, c, l, h1, h2, h3, h4⟩ := h
    subst h4
    obtain ⟨⟨m', h5⟩, h6⟩ := hs l σ2 h2 h3 (by cases a; exact hr)
    exact ⟨m + m', l, h1.trans h5, hp ▸ h2, h3, h6⟩
  | exit y σ2 =>
    rw [hr] at h
    cases y <;> first | exact h | trivial

/-! ## Contexts that differ -/

theorem CtxOk.block {Γ : Ctx} {N : Nat} {ct rt : Bool} (h : CtxOk pl A Γ N ct rt) {tg : Option Name}
    (ht : TgtOk tg N) (le : Nat) (rt' : Bool) : CtxOk pl A (Γ.block le tg) N ct rt' := by
  refine ⟨h.ct, fun _ => by simp, fun t hm => ?_, h.sc, fun s hs => ?_⟩
  · rcases List.mem_cons.1 hm with hm | hm
    · exact ht t hm.symm
    · exact h.rtg t hm
  · have := h.dep s hs
    simp only [List.length_cons]
    omega

theorem CtxOk.catch {Γ : Ctx} {N : Nat} {ct rt : Bool} (h : CtxOk pl A Γ N ct rt) (lc : Nat) :
    CtxOk pl A { Γ with catches := lc :: Γ.catches } N true rt := by
  refine ⟨rfl, h.rt, h.rtg, h.sc, fun s hs => ?_⟩
  have := h.dep s hs
  simp only [List.length_cons]
  omega

theorem CtxOk.loop {Γ : Ctx} {N : Nat} {ct rt : Bool} (h : CtxOk pl A Γ N ct rt) (lc le : Nat) :
    CtxOk pl A { Γ with conts := lc :: Γ.conts, brks := le :: Γ.brks } N ct rt := by
  refine ⟨h.ct, h.rt, h.rtg, h.sc, fun s hs => ?_⟩
  have := h.dep s hs
  simp only [List.length_cons]
  omega

section
variable {α : Type} {B N : Nat} {ex : List Name} {l0 : LSt X} {p : Option Val} {Γ : Ctx}
  {s : Cfg X}

/-- An exit that means the same in another context. -/
theorem Arr.exitIn {β : Type} {Γ' : Ctx} {x : Exit} {σ : St X} {Q' : β → LSt X → Cfg X → Prop}
    {Q : α → LSt X → Cfg X → Prop}
    (h : Arr F B P s N ex l0 p Γ' (.exit x σ) Q')
    (hp : x.final = false → exitPend Γ x = exitPend Γ' x)
    (hc : x.final = false → ∀ l : LSt X, exitCfg P Γ l x = exitCfg P Γ' l x)
    (hv : x.final = false → ∀ l : LSt X, exitVal Γ' l x → exitVal Γ l x) :
    Arr F B P s N ex l0 p Γ (.exit x σ) Q :=
  ExitArr.mono (Γ' := Γ') h (Nat.le_refl _) (Fr.refl _ _ _) (Nat.le_refl _) (fun _ _ h => h) hp hc hv

/-- From inside a `match` to the outside, for what does not end the `match`. -/
theorem Arr.outer {r : Res X α} {Q : α → LSt X → Cfg X → Prop} {le : Nat} {tg : Option Name}
    (h : Arr F B P s N ex l0 p (Γ.block le tg) r Q) (hr : ∀ v σ, r ≠ .exit (.ret v) σ) :
    Arr F B P s N ex l0 p Γ r Q := by
  cases r with
  | ok a σ => exact h
  | exit x σ =>
    cases x with
    | ret v => exact absurd rfl (hr v σ)
    | _ =>
      exact Arr.exitIn h (fun _ => rfl) (fun _ _ => rfl) (fun _ _ h => h)

/-- The block of a `match` case or of a `catch` has run. -/
theorem Arr.block {r : Res X Unit} {Q1 : Unit → LSt X → Cfg X → Prop}
    {Q : Val → LSt X → Cfg X → Prop} {le : Nat} {tg : Option Name} {void : Bool}
    {dflt : Option Val} (hd : ∀ s ∈ Γ.scopes, s.rd ≤ Γ.rets.length)
    (h : Arr F B P s N ex l0 p (Γ.block le tg) r Q1)
    (hret : ∀ v σ l, Rel p σ l → Fr N ex l0 l → (∀ t, tg = some t → l.env t = v) →
      Arr F B P (goto P le l) N ex l0 p Γ (.ok v σ) Q)
    (hok : ∀ σ l c, Rel p σ l → Fr N ex l0 l → Q1 () l c →
      Arr F B P c N ex l0 p Γ (blockValue void dflt (.ok () σ)) Q) :
    Arr F B P s N ex l0 p Γ (blockValue void dflt r) Q := by
  cases r with
  | ok a σ =>
    obtain ⟨m, c, l, h1, h2, h3, h4⟩ := h
    exact Arr.steps h1 (hok σ l c h2 h3 h4)
  | exit x σ =>
    cases x with
    | ret v =>
      have h : ExitArr F B P s N ex l0 p (Γ.block le tg) (.ret v) σ := h
      rw [exitArr_iff rfl] at h
      have e : exitPend (Γ.block le tg) (.ret v) = [] :=
        pending_none fun s hs => Nat.lt_succ_of_le (hd s hs)
      rw [e] at h
      obtain ⟨m, l, h1, h2, h3, h4⟩ := h
      refine Arr.steps h1 (hret v σ l h2 h3 fun t ht => ?_)
      subst ht
      exact h4 t (by simp [Linear.hd])
    | _ =>
      exact Arr.exitIn h (fun _ => rfl) (fun _ _ => rfl) (fun _ _ h => h)

/-- From inside a `try` to the outside, for what the handler does not take. -/
theorem Arr.catch {r : Res X α} {Q : α → LSt X → Cfg X → Prop} {lc : Nat}
    (h : Arr F B P s N ex l0 p { Γ with catches := lc :: Γ.catches } r Q)
    (hr : ∀ v σ, r ≠ .exit (.err v) σ) : Arr F B P s N ex l0 p Γ r Q := by
  cases r with
  | ok a σ => exact h
  | exit x σ =>
    cases x with
    | err v => exact absurd rfl (hr v σ)
    | _ =>
      exact Arr.exitIn h (fun _ => rfl) (fun _ _ => rfl) (fun _ _ h => h)

/-- An error arrives at the handler. -/
theorem Arr.caught {e : Val} {σ : St X} {Q : α → LSt X → Cfg X → Prop} {lc : Nat}
    (hd : ∀ s ∈ Γ.scopes, s.kd ≤ Γ.catches.length)
    (h : Arr (α := α) F B P s N ex l0 p { Γ with catches := lc :: Γ.catches } (.exit (.err e) σ) Q) :
    ∃ m l, Steps X P m s (goto P lc l) ∧ Rel (some e) σ l ∧ Fr N ex l0 l := by
  have h : ExitArr F B P s N ex l0 p { Γ with catches := lc :: Γ.catches } (.err e) σ := h
  rw [exitArr_iff rfl] at h
  have e1 : exitPend { Γ with catches := lc :: Γ.catches } (.err e) = [] :=
    pending_none fun s hs => Nat.lt_succ_of_le (hd s hs)
  rw [e1] at h
  obtain ⟨m, l, h1, h2, h3, h4⟩ := h
  exact ⟨m, l, h1, h2, h3⟩

end

/-! ## Expressions do not end a surrounding block -/

theorem bind_noRet {α β} {r : Res X α} {f : α → St X → Res X β} (h : ∀ v σ, r ≠ .exit (.ret v) σ)
    (hf : ∀ a σ1 v σ, f a σ1 ≠ .exit (.ret v) σ) : ∀ v σ, r.bind f ≠ .exit (.ret v) σ := by
  intro v σ
  cases r with
  | ok a σ1 => exact hf a σ1 v σ
  | exit x σ1 =>
    intro e
    cases e
    exact h _ _ rfl

theorem test_noRet {α} {r : Res X Val} {f : Bool → St X → Res X α} (h : ∀ v σ, r ≠ .exit (.ret v) σ)
    (hf : ∀ a σ1 v σ, f a σ1 ≠ .exit (.ret v) σ) {v : Val} {σ : St X} : r.test f ≠ .exit (.ret v) σ := by
  refine bind_noRet h (fun u σ1 v σ => ?_) v σ
  cases u with
  | b t => exact hf t σ1 v σ
  | _ => simp

theorem blockValue_noRet {void : Bool} {dflt : Option Val} {r : Res X Unit} (v : Val) (σ : St X) :
    blockValue void dflt r ≠ .exit (.ret v) σ := by
  cases r with
  | ok a σ1 =>
    simp only [blockValue]
    split
    · simp
    · split <;> simp
  | exit x σ1 => cases x <;> simp [blockValue]

mutual
theorem noRetE : ∀ (e : Expr) (ct : Bool) (σ : St X) v σ', evalE X F e ct σ ≠ .exit (.ret v) σ'
  | .lit _, _, _, _, _ => by simp [evalE]
  | .var (.src _), _, _, _, _ => by simp [evalE]
  | .var (.tmp _), _, _, _, _ => by simp [evalE]
  | .arith o l r, ct, σ, v, σ' => by
    simp only [evalE, Res.bind]
    have h1 := noRetE l ct σ
    have h2 := noRetE r ct
    intro h
    split at h
    · split at h
      · cases h
      · rename_i σ1 _ _ _ h'
        cases h
        exact h2 _ _ _ h'
    · rename_i h'
      cases h
      exact h1 _ _ h'
  | .cmp k c l r, ct, σ, v, σ' => by
    simp only [evalE, Res.bind]
    have h1 := noRetE l ct σ
    have h2 := noRetE r ct
    intro h
    split at h
    · split at h
      · cases h
      · rename_i σ1 _ _ _ h'
        cases h
        exact h2 _ _ _ h'
    · rename_i h'
      cases h
      exact h1 _ _ h'
  | .and l r, ct, σ, v, σ' => by
    simp only [evalE]
    exact test_noRet (noRetE l ct σ) fun t σ1 => by
      split
      · exact fun _ _ => test_noRet (noRetE r ct σ1) (by simp)
      · simp
  | .or l r, ct, σ, v, σ' => by
    simp only [evalE]
    exact test_noRet (noRetE l ct σ) fun t σ1 => by
      split
      · simp
      · exact fun _ _ => test_noRet (noRetE r ct σ1) (by simp)
  | .tern c l r, ct, σ, v, σ' => by
    simp only [evalE]
    exact test_noRet (noRetE c ct σ) fun t σ1 => by
      split
      · exact noRetE l ct σ1
      · exact noRetE r ct σ1
  | .call f fl void args, ct, σ, v, σ' => by
    simp only [evalE]
    refine bind_noRet (noRetA args ct σ) (fun vs σ1 v σ' => ?_) v σ'
    unfold doCall
    split
    · simp
    · split
      · simp
      · simp
      · split <;> simp
  | .mtch void cs, ct, σ, v, σ' => by
    simp only [evalE]
    exact noRetC cs none void ct σ v σ'
  | .mtchS _ void k s cs, ct, σ, v, σ' => by
    simp only [evalE]
    exact bind_noRet (noRetE s ct σ) (fun u σ1 => noRetC cs _ void ct σ1) v σ'
  | .ctch void dflt e x b, ct, σ, v, σ' => by
    simp only [evalE]
    have h1 := noRetE e true σ
    split
    · exact blockValue_noRet v σ'
    · exact h1 v σ'
theorem noRetA : ∀ (a : Args) (ct : Bool) (σ : St X) v σ', evalA X F a ct σ ≠ .exit (.ret v) σ'
  | .nil, _, _, _, _ => by simp [evalA]
  | .cons e rest, ct, σ, v, σ' => by
    simp only [evalA]
    exact bind_noRet (noRetE e ct σ) (fun v σ1 => bind_noRet (noRetA rest ct σ1) (by simp)) v σ'
theorem noRetK : ∀ (a : Args) sub (ct : Bool) (σ : St X) v σ', anyHolds X F a sub ct σ ≠ .exit (.ret v) σ'
  | .nil, _, _, _, _, _ => by simp [anyHolds]
  | .cons e rest, sub, ct, σ, v, σ' => by
    simp only [anyHolds]
    refine bind_noRet (noRetE e ct σ) (fun u σ1 => ?_) v σ'
    intro v σ'
    split
    · split
      · simp
      · exact noRetK rest _ ct σ1 v σ'
    · split
      · simp
      · exact noRetK rest _ ct σ1 v σ'
    · simp
theorem noRetC : ∀ (cs : Cases) sub void (ct : Bool) (σ : St X) v σ',
    evalC X F cs sub void ct σ ≠ .exit (.ret v) σ'
  | .last true _ b, sub, void, ct, σ, v, σ' => by
    simp only [evalC]
    exact blockValue_noRet v σ'
  | .last false ks b, sub, void, ct, σ, v, σ' => by
    simp only [evalC]
    refine bind_noRet (noRetK ks sub ct σ) (fun t σ1 => ?_) v σ'
    intro v σ'
    split
    · exact blockValue_noRet v σ'
    · simp
  | .cons ks b rest, sub, void, ct, σ, v, σ' => by
    simp only [evalC]
    refine bind_noRet (noRetK ks sub ct σ) (fun t σ1 => ?_) v σ'
    intro v σ'
    split
    · exact blockValue_noRet v σ'
    · exact noRetC rest sub void ct σ1 v σ'
end

end Nature.Linear
