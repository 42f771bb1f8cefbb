import Verif.Linear.Static

/-! # What it means for LIR to do what a piece of the source does -/
namespace Nature.Linear

open Spec

variable {X : Ext} {P : List Instr} {F : Nat}

/-! ## Executions -/

theorem Steps.trans {m m' : Nat} {a b c : Cfg X} (h : Steps X P m a b) (h' : Steps X P m' b c) :
    Steps X P (m + m') a c := by
  induction h with
  | refl c => simpa using h'
  | @head k l m c h ih =>
    have := Steps.head (ih h')
    rwa [show m + 1 + m' = m + m' + 1 by omega]

theorem Steps.one (k : List Instr) (l : LSt X) : Steps X P 1 (.run k l) (step X P k l) :=
  Steps.head (Steps.refl _)

theorem cnt_le_append_right (t : Nat) (a b : List Instr) : cnt t b ≤ cnt t (a ++ b) := by
  rw [cnt_append]; omega

theorem after_eq {t : Nat} {pre k : List Instr} (h : cnt t (pre ++ .label t :: k) ≤ 1) :
    after (pre ++ .label t :: k) t = some (.label t :: k) := by
  induction pre with
  | nil => simp [after]
  | cons i pre ih =>
    have h1 : cnt t (.label t :: k) ≥ 1 := by simp [cnt]
    have h2 := cnt_le_append_right t pre (.label t :: k)
    cases i with
    | label s =>
      simp only [List.cons_append, cnt] at h
      by_cases hs : s = t
      · rw [if_pos hs] at h; omega
      · simp only [List.cons_append, after, if_neg hs]
        exact ih (by omega)
    | _ =>
      simp only [List.cons_append, cnt] at h
      simp only [List.cons_append, after]
      exact ih h

/-- Every label occurs at most once. -/
def Uniq (P : List Instr) : Prop := ∀ t, cnt t P ≤ 1

theorem goto_eq (hU : Uniq P) {t : Nat} {k : List Instr} (h : (.label t :: k) <:+ P) (l : LSt X) :
    goto P t l = .run (.label t :: k) l := by
  obtain ⟨pre, rfl⟩ := h
  unfold goto
  rw [after_eq (hU t)]

theorem suf_drop {a b : List Instr} (h : (a ++ b) <:+ P) : b <:+ P :=
  (List.suffix_append a b).trans h

theorem suf_tail {i : Instr} {b : List Instr} (h : (i :: b) <:+ P) : b <:+ P :=
  (List.suffix_cons i b).trans h

/-! ## Related states -/

/-- Same variables, same world, and the pending error is `p`. -/
structure Rel (p : Option Val) (σ : St X) (l : LSt X) : Prop where
  vars : ∀ x, l.env (.src x) = σ.vars x
  w : l.w = σ.w
  err : l.err = p
  rv : l.rv = none

/-- Temporaries below `N` outside `ex` are kept. -/
def Fr (N : Nat) (ex : List Name) (l l' : LSt X) : Prop :=
  ∀ k, k < N → .tmp k ∉ ex → l'.env (.tmp k) = l.env (.tmp k)

theorem Fr.refl (N : Nat) (ex : List Name) (l : LSt X) : Fr N ex l l := fun _ _ _ => rfl

theorem Fr.trans {N N' : Nat} {ex ex' : List Name} {l0 l1 l2 : LSt X} (h : Fr N ex l0 l1)
    (h' : Fr N' ex' l1 l2) (hN : N ≤ N') (hex : ∀ k, k < N → .tmp k ∈ ex' → .tmp k ∈ ex) :
    Fr N ex l0 l2 := by
  intro k hk hn
  rw [h' k (by omega) (fun h => hn (hex k hk h)), h k hk hn]

/-- The deferred blocks that run before control arrives where the exit leads. -/
def exitPend (Γ : Ctx) : Exit → List Body
  | .brk => pending (·.bd) Γ.brks.length Γ.scopes
  | .cont => pending (·.cd) Γ.conts.length Γ.scopes
  | .ret _ => pending (·.rd) Γ.rets.length Γ.scopes
  | .retn _ => pendingAll Γ.scopes
  | .thrown _ => pendingAll Γ.scopes
  | .err _ => pending (·.kd) Γ.catches.length Γ.scopes
  | _ => []

/-- Where the exit leads. -/
def exitCfg (P : List Instr) (Γ : Ctx) (l : LSt X) : Exit → Cfg X
  | .brk => goto P (Γ.brks.headD 0) l
  | .cont => goto P (Γ.conts.headD 0) l
  | .ret _ => goto P (Γ.rets.headD 0) l
  | .retn v => goto P endL { l with rv := v }
  | .thrown _ => goto P endL l
  | .err _ => goto P (errTarget Γ) l
  | _ => .crash

/-- The error pending there. -/
def exitErr (p : Option Val) : Exit → Option Val
  | .thrown e => some e
  | .err e => some e
  | _ => p

/-- The target of the innermost `match` or `catch`. -/
def hd (Γ : Ctx) : List Name :=
  match Γ.rtg with
  | some t :: _ => [t]
  | _ => []

/-- A `ret` brings its value. -/
def exitVal (Γ : Ctx) (l : LSt X) : Exit → Prop
  | .ret v => ∀ t ∈ hd Γ, l.env t = v
  | _ => True

def ExitArr (F B : Nat) (P : List Instr) (s : Cfg X) (N : Nat) (ex : List Name) (l0 : LSt X)
    (p : Option Val) (Γ : Ctx) (x : Exit) (σ : St X) : Prop :=
  match x with
  | .timeout => ∃ m c, Steps X P m s c ∧ B ≤ m
  | .stuck => True
  | .abort => ∃ m l, Steps X P m s (.aborted l) ∧ l.w = σ.w
  | x =>
    match runAll X F (exitPend Γ x) σ with
    | .ok _ σ2 => ∃ m l, Steps X P m s (exitCfg P Γ l x) ∧ Rel (exitErr p x) σ2 l ∧
        Fr N ex l0 l ∧ exitVal Γ l x
    | .exit .timeout _ => ∃ m c, Steps X P m s c ∧ B ≤ m
    | .exit _ _ => True

/-- From `s`, LIR does what the source did with outcome `r`: it reaches a related state in which `Q`
holds, or the place the exit leads to. -/
def Arr {α} (F B : Nat) (P : List Instr) (s : Cfg X) (N : Nat) (ex : List Name) (l0 : LSt X)
    (p : Option Val) (Γ : Ctx) (r : Res X α) (Q : α → LSt X → Cfg X → Prop) : Prop :=
  match r with
  | .ok a σ => ∃ m c l, Steps X P m s c ∧ Rel p σ l ∧ Fr N ex l0 l ∧ Q a l c
  | .exit x σ => ExitArr F B P s N ex l0 p Γ x σ

section
variable {α β : Type} {B B' N N' : Nat} {ex ex' : List Name} {l0 l1 : LSt X} {p : Option Val}
  {Γ Γ' : Ctx} {s s' : Cfg X} {x : Exit} {σ : St X}

theorem ExitArr.pre {m : Nat} (hs : Steps X P m s s')
    (h : ExitArr F B P s' N ex l0 p Γ x σ) : ExitArr F (B + m) P s N ex l0 p Γ x σ := by
  have T : (∃ m c, Steps X P m s' c ∧ B ≤ m) → ∃ m' c, Steps X P m' s c ∧ B + m ≤ m' := by
    rintro ⟨m', c, h1, h2⟩
    exact ⟨m + m', c, hs.trans h1, by omega⟩
  have G : ∀ x, (match runAll X F (exitPend Γ x) σ with
      | .ok _ σ2 => ∃ m l, Steps X P m s' (exitCfg P Γ l x) ∧ Rel (exitErr p x) σ2 l ∧
          Fr N ex l0 l ∧ exitVal Γ l x
      | .exit .timeout _ => ∃ m c, Steps X P m s' c ∧ B ≤ m
      | .exit _ _ => True) →
      (match runAll X F (exitPend Γ x) σ with
      | .ok _ σ2 => ∃ m l, Steps X P m s (exitCfg P Γ l x) ∧ Rel (exitErr p x) σ2 l ∧
          Fr N ex l0 l ∧ exitVal Γ l x
      | .exit .timeout _ => ∃ m' c, Steps X P m' s c ∧ B + m ≤ m'
      | .exit _ _ => True) := by
    intro x h
    cases hr : runAll X F (exitPend Γ x) σ with
    | ok a σ2 =>
      simp only [hr] at h ⊢
      obtain ⟨m', l, h1, h2⟩ := h
      exact ⟨m + m', l, hs.trans h1, h2⟩
    | exit y σ2 =>
      simp only [hr] at h ⊢
      cases y <;> first | exact T h | trivial
  cases x with
  | timeout => exact T h
  | stuck => trivial
  | abort =>
    obtain ⟨m', l, h1, h2⟩ := h
    exact ⟨m + m', l, hs.trans h1, h2⟩
  | brk => exact G _ h
  | cont => exact G _ h
  | ret v => exact G (.ret v) h
  | retn v => exact G (.retn v) h
  | thrown e => exact G (.thrown e) h
  | err e => exact G (.err e) h

/-- Weaken the bound and the frame, and move to a context in which the exit means the same. -/
theorem ExitArr.mono (h : ExitArr F B' P s N' ex' l1 p Γ' x σ) (hB : B ≤ B')
    (fr : Fr N ex l0 l1) (hN : N ≤ N') (hex : ∀ k, k < N → .tmp k ∈ ex' → .tmp k ∈ ex)
    (hp : x.final = false → exitPend Γ x = exitPend Γ' x)
    (hc : x.final = false → ∀ l : LSt X, exitCfg P Γ l x = exitCfg P Γ' l x)
    (hv : x.final = false → ∀ l : LSt X, exitVal Γ' l x → exitVal Γ l x) :
    ExitArr F B P s N ex l0 p Γ x σ := by
  have T : (∃ m c, Steps X P m s c ∧ B' ≤ m) → ∃ m c, Steps X P m s c ∧ B ≤ m := by
    rintro ⟨m', c, h1, h2⟩
    exact ⟨m', c, h1, by omega⟩
  have G : x.final = false → (match runAll X F (exitPend Γ' x) σ with
      | .ok _ σ2 => ∃ m l, Steps X P m s (exitCfg P Γ' l x) ∧ Rel (exitErr p x) σ2 l ∧
          Fr N' ex' l1 l ∧ exitVal Γ' l x
      | .exit .timeout _ => ∃ m c, Steps X P m s c ∧ B' ≤ m
      | .exit _ _ => True) →
      (match runAll X F (exitPend Γ x) σ with
      | .ok _ σ2 => ∃ m l, Steps X P m s (exitCfg P Γ l x) ∧ Rel (exitErr p x) σ2 l ∧
          Fr N ex l0 l ∧ exitVal Γ l x
      | .exit .timeout _ => ∃ m c, Steps X P m s c ∧ B ≤ m
      | .exit _ _ => True) := by
    intro hx h
    rw [hp hx]
    cases hr : runAll X F (exitPend Γ' x) σ with
    | ok a σ2 =>
      simp only [hr] at h ⊢
      obtain ⟨m', l, h1, h2, h3, h4⟩ := h
      exact ⟨m', l, by rw [hc hx]; exact h1, h2, fr.trans h3 hN hex, hv hx l h4⟩
    | exit y σ2 =>
      simp only [hr] at h ⊢
      cases y <;> first | exact T h | trivial
  cases x with
  | timeout => exact T h
  | stuck => trivial
  | abort => exact h
  | brk => exact G rfl h
  | cont => exact G rfl h
  | ret v => exact G rfl h
  | retn v => exact G rfl h
  | thrown e => exact G rfl h
  | err e => exact G rfl h

theorem Arr.pre {r : Res X α} {Q : α → LSt X → Cfg X → Prop} {m : Nat}
    (hs : Steps X P m s s') (h : Arr F B P s' N ex l0 p Γ r Q) :
    Arr F (B + m) P s N ex l0 p Γ r Q := by
  cases r with
  | ok a σ =>
    obtain ⟨m', c, l, h1, h2⟩ := h
    exact ⟨m + m', c, l, hs.trans h1, h2⟩
  | exit x σ => exact ExitArr.pre hs h

theorem Arr.mono {r : Res X α} {Q Q' : α → LSt X → Cfg X → Prop}
    (h : Arr F B' P s N' ex' l1 p Γ r Q') (hB : B ≤ B')
    (fr : Fr N ex l0 l1) (hN : N ≤ N') (hex : ∀ k, k < N → .tmp k ∈ ex' → .tmp k ∈ ex)
    (hQ : ∀ a l c, Q' a l c → Q a l c) : Arr F B P s N ex l0 p Γ r Q := by
  cases r with
  | ok a σ =>
    obtain ⟨m', c, l, h1, h2, h3, h4⟩ := h
    exact ⟨m', c, l, h1, h2, fr.trans h3 hN hex, hQ _ _ _ h4⟩
  | exit x σ =>
    exact ExitArr.mono h hB fr hN hex (fun _ => rfl) (fun _ _ => rfl) (fun _ _ h => h)

theorem Arr.weakB {r : Res X α} {Q : α → LSt X → Cfg X → Prop}
    (h : Arr F B' P s N ex l0 p Γ r Q) (hB : B ≤ B') : Arr F B P s N ex l0 p Γ r Q :=
  h.mono hB (Fr.refl _ _ _) (Nat.le_refl _) (fun _ _ h => h) (fun _ _ _ h => h)

/-- Run some operations that do not count. -/
theorem Arr.steps {r : Res X α} {Q : α → LSt X → Cfg X → Prop} {m : Nat}
    (hs : Steps X P m s s') (h : Arr F B P s' N ex l0 p Γ r Q) : Arr F B P s N ex l0 p Γ r Q :=
  (Arr.pre hs h).weakB (Nat.le_add_right _ _)

/-- One operation. -/
theorem Arr.step {r : Res X α} {Q : α → LSt X → Cfg X → Prop} {k : List Instr} {l : LSt X}
    (h : Arr F B P (step X P k l) N ex l0 p Γ r Q) : Arr F B P (.run k l) N ex l0 p Γ r Q :=
  Arr.steps (Steps.one k l) h

theorem Arr.ret {a : α} {Q : α → LSt X → Cfg X → Prop} {l : LSt X} (hr : Rel p σ l)
    (fr : Fr N ex l0 l) (hQ : Q a l s) : Arr F B P s N ex l0 p Γ (.ok a σ) Q :=
  ⟨0, s, l, Steps.refl _, hr, fr, hQ⟩

/-- One piece after another. -/
theorem Arr.seq {r : Res X α} {f : α → St X → Res X β} {Q1 : α → LSt X → Cfg X → Prop}
    {Q : β → LSt X → Cfg X → Prop}
    (h1 : Arr F B' P s N' ex' l1 p Γ r Q1) (hB : B ≤ B') (fr : Fr N ex l0 l1) (hN : N ≤ N')
    (hex : ∀ k, k < N → .tmp k ∈ ex' → .tmp k ∈ ex)
    (h2 : ∀ a σ l c, r = .ok a σ → Rel p σ l → Fr N' ex' l1 l → Q1 a l c →
      Arr F B P c N ex l0 p Γ (f a σ) Q) : Arr F B P s N ex l0 p Γ (r.bind f) Q := by
  cases r with
  | ok a σ =>
    obtain ⟨m, c, l, e1, e2, e3, e4⟩ := h1
    exact Arr.steps e1 (h2 a σ l c rfl e2 e3 e4)
  | exit x σ =>
    exact ExitArr.mono h1 hB fr hN hex (fun _ => rfl) (fun _ _ => rfl) (fun _ _ h => h)

/-- A condition. -/
theorem Arr.test {r : Res X Val} {f : Bool → St X → Res X β} {Q1 : Val → LSt X → Cfg X → Prop}
    {Q : β → LSt X → Cfg X → Prop}
    (h1 : Arr F B' P s N' ex' l1 p Γ r Q1) (hB : B ≤ B') (fr : Fr N ex l0 l1) (hN : N ≤ N')
    (hex : ∀ k, k < N → .tmp k ∈ ex' → .tmp k ∈ ex)
    (h2 : ∀ t σ l c, r = .ok (.b t) σ → Rel p σ l → Fr N' ex' l1 l → Q1 (.b t) l c →
      Arr F B P c N ex l0 p Γ (f t σ) Q) : Arr F B P s N ex l0 p Γ (r.test f) Q := by
  refine Arr.seq h1 hB fr hN hex ?_
  intro v σ l c hr e1 e2 e3
  cases v with
  | b t => exact h2 t σ l c hr e1 e2 e3
  | n _ => trivial
  | f _ => trivial
  | o _ => trivial

theorem Arr.noJump {r : Res X α} {Q : α → LSt X → Cfg X → Prop}
    (h : Arr F B P s N ex l0 p Γ r Q) : Arr F B P s N ex l0 p Γ r.noJump Q := by
  cases r with
  | ok a σ => exact h
  | exit x σ => cases x <;> first | exact h | trivial

end

/-! ## Contexts -/

variable {pl : Nat → Bool} {A : List Nat}

structure CtxOk (pl : Nat → Bool) (A : List Nat) (Γ : Ctx) (N : Nat) (ct rt : Bool) : Prop where
  ct : ct = !Γ.catches.isEmpty
  rt : rt = true → Γ.rtg ≠ []
  rtg : ∀ t, some t ∈ Γ.rtg → ∃ k, k < N ∧ t = .tmp k
  sc : ScopesOk pl A Γ.scopes
  dep : ∀ s ∈ Γ.scopes, s.cd ≤ Γ.conts.length ∧ s.bd ≤ Γ.brks.length ∧ s.rd ≤ Γ.rets.length ∧
    s.kd ≤ Γ.catches.length

theorem CtxOk.mono {Γ : Ctx} {N N' : Nat} {ct rt : Bool} (h : CtxOk pl A Γ N ct rt) (hN : N ≤ N') :
    CtxOk pl A Γ N' ct rt :=
  ⟨h.ct, h.rt, fun t ht => by
      obtain ⟨k, hk, e⟩ := h.rtg t ht
      exact ⟨k, by omega, e⟩, h.sc, h.dep⟩

def TgtOk (tgt : Option Name) (N : Nat) : Prop := ∀ t, tgt = some t → ∃ k, k < N ∧ t = .tmp k

theorem TgtOk.none {N : Nat} : TgtOk none N := by intro t h; cases h

/-- The `match` nodes to come have not been compiled yet. -/
def Fresh (ids : List Nat) (c : CSt) : Prop := ids.Nodup ∧ ∀ i ∈ ids, i ∉ seenIds c

theorem Fresh.left {a b : List Nat} {c : CSt} (h : Fresh (a ++ b) c) : Fresh a c :=
  ⟨(List.nodup_append.1 h.1).1, fun i hi => h.2 i (List.mem_append.2 (.inl hi))⟩

theorem Fresh.right {a b : List Nat} {c c' : CSt} (h : Fresh (a ++ b) c)
    (hs : ∀ i, i ∈ seenIds c' → i ∈ seenIds c ∨ i ∈ a) : Fresh b c' := by
  refine ⟨(List.nodup_append.1 h.1).2.1, fun i hi hi' => ?_⟩
  rcases hs i hi' with h1 | h1
  · exact h.2 i (List.mem_append.2 (.inr hi)) h1
  · exact (List.nodup_append.1 h.1).2.2 i h1 i hi rfl

theorem Fresh.same {a : List Nat} {c c' : CSt} (h : Fresh a c) (hs : c'.seen = c.seen) :
    Fresh a c' := by
  refine ⟨h.1, fun i hi => ?_⟩
  have := h.2 i hi
  unfold seenIds at *
  rwa [hs]

theorem Fresh.nil (c : CSt) : Fresh [] c := ⟨List.nodup_nil, by simp⟩

/-! ## Scopes and what they make pending -/

/-- Nothing is pending between here and a label pushed after all the scopes. -/
theorem pending_none {f : Scope → Nat} {d : Nat} {ss : List Scope} (h : ∀ s ∈ ss, f s < d) :
    pending f d ss = [] := by
  unfold pending
  rw [List.filter_eq_nil_iff.2]
  · rfl
  · intro s hs
    have := h s hs
    simp; omega

theorem pending_cons {f : Scope → Nat} {d : Nat} {s : Scope} {ss : List Scope} (h : f s = d) :
    pending f d (s :: ss) = s.defers ++ pending f d ss := by
  unfold pending
  rw [List.filter_cons_of_pos (by simp [h])]
  rfl

end Nature.Linear
