import Verif.Linear.Model
import Verif.Linear.SpecLemmas

/-! # What the compiler does to its counters, and that it emits each label once -/
namespace Nature.Linear

open Spec

/-! ## Taking the compiler apart -/

theorem bind_some {α β} {x : M α} {f : α → M β} {c : CSt} {b : β} {k : List Instr} {c' : CSt} :
    (x >>= f) c = some (b, k, c') ↔
      ∃ a k1 c1 k2, x c = some (a, k1, c1) ∧ f a c1 = some (b, k2, c') ∧ k = k1 ++ k2 := by
  show M.bind x f c = _ ↔ _
  unfold M.bind
  cases hx : x c with
  | none => simp
  | some r =>
    obtain ⟨a, k1, c1⟩ := r
    cases hf : f a c1 with
    | none =>
      simp only [hf]
      constructor
      · intro h; cases h
      · rintro ⟨a', k1', c1', k2, h1, h2, h3⟩
        cases h1
        rw [hf] at h2
        cases h2
    | some r2 =>
      obtain ⟨b', k2, c2⟩ := r2
      simp only [hf]
      constructor
      · intro h
        cases h
        exact ⟨a, k1, c1, k2, rfl, hf, rfl⟩
      · rintro ⟨a', k1', c1', k2', h1, h2, h3⟩
        cases h1
        rw [hf] at h2
        cases h2
        subst h3
        rfl

theorem pure_some {α} {a b : α} {c c' : CSt} {k : List Instr} :
    (pure a : M α) c = some (b, k, c') ↔ b = a ∧ k = [] ∧ c' = c := by
  show some (a, [], c) = some (b, k, c') ↔ _
  constructor
  · intro h; cases h; exact ⟨rfl, rfl, rfl⟩
  · rintro ⟨rfl, rfl, rfl⟩; rfl

theorem emit_some {u : Unit} {c c' : CSt} {k0 k : List Instr} :
    emit k0 c = some (u, k, c') ↔ k = k0 ∧ c' = c := by
  constructor
  · intro h; cases h; exact ⟨rfl, rfl⟩
  · rintro ⟨rfl, rfl⟩; rfl

theorem freshL_some {l : Nat} {c c' : CSt} {k : List Instr} :
    freshL c = some (l, k, c') ↔ l = c.lbl ∧ k = [] ∧ c' = { c with lbl := c.lbl + 1 } := by
  constructor
  · intro h; cases h; exact ⟨rfl, rfl, rfl⟩
  · rintro ⟨rfl, rfl, rfl⟩; rfl

theorem freshT_some {t : Name} {c c' : CSt} {k : List Instr} :
    freshT c = some (t, k, c') ↔ t = .tmp c.tmp ∧ k = [] ∧ c' = { c with tmp := c.tmp + 1 } := by
  constructor
  · intro h; cases h; exact ⟨rfl, rfl, rfl⟩
  · rintro ⟨rfl, rfl, rfl⟩; rfl

theorem fail_some {α} {a : α} {c c' : CSt} {k : List Instr} :
    (fail : M α) c = some (a, k, c') ↔ False := by
  simp [fail]

/-! ## Counting labels -/

/-- How often `label l` occurs. -/
def cnt (l : Nat) : List Instr → Nat
  | [] => 0
  | .label t :: k => (if t = l then 1 else 0) + cnt l k
  | _ :: k => cnt l k

def one (t l : Nat) : Nat := if t = l then 1 else 0

theorem cnt_append (l : Nat) (a b : List Instr) : cnt l (a ++ b) = cnt l a + cnt l b := by
  induction a with
  | nil => simp [cnt]
  | cons i a ih =>
    cases i <;> simp [cnt, ih] <;> omega

/-- In the range of labels made between two states. -/
def inR (c c' : CSt) (l : Nat) : Nat := if c.lbl ≤ l ∧ l < c'.lbl then 1 else 0

theorem inR_add {c c1 c' : CSt} (h1 : c.lbl ≤ c1.lbl) (h2 : c1.lbl ≤ c'.lbl) (l : Nat) :
    inR c c1 l + inR c1 c' l = inR c c' l := by
  unfold inR
  by_cases a : c.lbl ≤ l ∧ l < c1.lbl
  · rw [if_pos a, if_neg (by omega), if_pos (by omega)]
  · by_cases b : c1.lbl ≤ l ∧ l < c'.lbl
    · rw [if_neg a, if_pos b, if_pos (by omega)]
    · rw [if_neg a, if_neg b, if_neg (by omega)]

def seenIds (c : CSt) : List Nat := c.seen.map (·.1)

/-- The compiler piece `x` counts up, emits each new label at most once and every other label at
most as often as `w` says, and records only rewritings of `ids`. -/
def SOk {α} (x : M α) (w : Nat → Nat) (ids : List Nat) : Prop :=
  ∀ c a k c', x c = some (a, k, c') →
    c.lbl ≤ c'.lbl ∧ c.tmp ≤ c'.tmp ∧ (∀ l, cnt l k ≤ inR c c' l + w l) ∧
    (∀ i, i ∈ seenIds c' → i ∈ seenIds c ∨ i ∈ ids)

namespace SOk
variable {α β : Type} {ids ids' : List Nat} {w w' : Nat → Nat}

theorem fail : SOk (fail : M α) w ids := by
  intro c a k c' h
  exact absurd h (by simp [Linear.fail])

theorem pure (a : α) : SOk (pure a : M α) w ids := by
  intro c b k c' h
  obtain ⟨rfl, rfl, rfl⟩ := pure_some.1 h
  exact ⟨Nat.le_refl _, Nat.le_refl _, fun l => by simp [cnt], fun i hi => .inl hi⟩

theorem mono {x : M α} (h : SOk x w' ids') (hw : ∀ l, w' l ≤ w l) (hi : ∀ i ∈ ids', i ∈ ids) :
    SOk x w ids := by
  intro c a k c' hx
  obtain ⟨h1, h2, h3, h4⟩ := h c a k c' hx
  exact ⟨h1, h2, fun l => Nat.le_trans (h3 l) (Nat.add_le_add_left (hw l) _), fun i hi' =>
    (h4 i hi').imp id (hi i)⟩

theorem bind {x : M α} {f : α → M β} (hx : SOk x (fun _ => 0) ids') (hi : ∀ i ∈ ids', i ∈ ids)
    (hf : ∀ a, SOk (f a) w ids) : SOk (x >>= f) w ids := by
  intro c b k c' h
  obtain ⟨a, k1, c1, k2, h1, h2, rfl⟩ := bind_some.1 h
  obtain ⟨p1, p2, p3, p4⟩ := hx c a k1 c1 h1
  obtain ⟨q1, q2, q3, q4⟩ := hf a c1 b k2 c' h2
  refine ⟨Nat.le_trans p1 q1, Nat.le_trans p2 q2, fun l => ?_, fun i h => ?_⟩
  · rw [cnt_append, ← inR_add p1 q1]
    have h3 := p3 l
    have h4 := q3 l
    simp only at h3
    omega
  · rcases q4 i h with h | h
    · exact (p4 i h).imp id (hi i)
    · exact .inr h

theorem bindEmit {k0 : List Instr} {f : Unit → M β} (hw : ∀ l, cnt l k0 ≤ w l)
    (hf : SOk (f ()) (fun l => w l - cnt l k0) ids) : SOk (emit k0 >>= f) w ids := by
  intro c b k c' h
  obtain ⟨a, k1, c1, k2, h1, h2, rfl⟩ := bind_some.1 h
  obtain ⟨rfl, rfl⟩ := emit_some.1 h1
  obtain ⟨q1, q2, q3, q4⟩ := hf _ b k2 c' h2
  refine ⟨q1, q2, fun l => ?_, q4⟩
  rw [cnt_append]
  have h3 := q3 l
  have h4 := hw l
  simp only at h3
  omega

theorem emit {k0 : List Instr} (hw : ∀ l, cnt l k0 ≤ w l) : SOk (emit k0) w ids := by
  intro c b k c' h
  obtain ⟨rfl, rfl⟩ := emit_some.1 h
  exact ⟨Nat.le_refl _, Nat.le_refl _, fun l => by have := hw l; omega, fun i hi => .inl hi⟩

theorem bindL {f : Nat → M β} (hf : ∀ t, SOk (f t) (fun l => w l + one t l) ids) :
    SOk (freshL >>= f) w ids := by
  intro c b k c' h
  obtain ⟨a, k1, c1, k2, h1, h2, rfl⟩ := bind_some.1 h
  obtain ⟨rfl, rfl, rfl⟩ := freshL_some.1 h1
  obtain ⟨q1, q2, q3, q4⟩ := hf _ _ b k2 c' h2
  simp only at q1
  refine ⟨by omega, q2, fun l => ?_, q4⟩
  have h3 := q3 l
  simp only at h3
  have : inR { c with lbl := c.lbl + 1 } c' l + one c.lbl l = inR c c' l := by
    unfold inR one
    simp only
    by_cases a : c.lbl = l
    · subst a
      rw [if_neg (by omega), if_pos rfl, if_pos (by omega)]
    · rw [if_neg a]
      by_cases b : c.lbl ≤ l ∧ l < c'.lbl
      · rw [if_pos b, if_pos (by omega)]
      · rw [if_neg b, if_neg (by omega)]
  simp only [List.nil_append]
  omega

theorem bindT {f : Name → M β} (hf : ∀ t, SOk (f t) w ids) : SOk (freshT >>= f) w ids := by
  refine bind (ids' := []) (fun c a k c' h => ?_) (by simp) hf
  obtain ⟨rfl, rfl, rfl⟩ := freshT_some.1 h
  exact ⟨Nat.le_refl _, Nat.le_succ _, fun l => by simp [cnt], fun i hi => .inl hi⟩

theorem bindPure {a : α} {f : α → M β} (hf : SOk (f a) w ids) : SOk ((Pure.pure a : M α) >>= f) w ids := by
  have e : ((Pure.pure a : M α) >>= f) = f a := by
    funext c
    show M.bind (M.pure a) f c = f a c
    unfold M.bind M.pure
    simp only
    cases h : f a c with
    | none => rfl
    | some r => obtain ⟨b, k', c2⟩ := r; simp
  rw [e]; exact hf

theorem bindTarget {tgt : Option Name} {f : Name → M β} (hf : ∀ t, SOk (f t) w ids) :
    SOk (target tgt >>= f) w ids := by
  cases tgt with
  | none => exact bindT hf
  | some t => exact bindPure (hf t)

theorem bindNeed {r : Option Opd} {f : Opd → M β} (hf : ∀ o, SOk (f o) w ids) :
    SOk (need r >>= f) w ids := by
  cases r with
  | none =>
    intro c b k c' h
    obtain ⟨a, k1, c1, k2, h1, h2, rfl⟩ := bind_some.1 h
    exact absurd h1 (by simp [need, Linear.fail])
  | some o => exact bindPure (hf o)

theorem bindTop {r : List Nat} {f : Nat → M β} (hf : ∀ o, SOk (f o) w ids) :
    SOk (top r >>= f) w ids := by
  cases r with
  | nil =>
    intro c b k c' h
    obtain ⟨a, k1, c1, k2, h1, h2, rfl⟩ := bind_some.1 h
    exact absurd h1 (by simp [top, Linear.fail])
  | cons o _ => exact bindPure (hf o)

theorem superMove {tgt : Option Name} {o : Opd} : SOk (superMove tgt o) w ids := by
  cases tgt with
  | none => exact pure _
  | some t => exact bindEmit (by simp [cnt]) (pure _)

theorem bindArg {o : Opd} {f : Opd → M β} (hf : ∀ o, SOk (f o) w ids) :
    SOk (argOpd o >>= f) w ids := by
  refine bind (ids' := []) ?_ (by simp) hf
  cases o with
  | var x => exact pure _
  | imm v => exact bindT fun t => bindEmit (by simp [cnt]) (pure _)

theorem bindSee {id : Nat} {s : Name} {f : List Nat → M β} (hi : id ∈ ids)
    (hf : ∀ o, SOk (f o) w ids) : SOk (see id s >>= f) w ids := by
  refine bind (ids' := [id]) ?_ (by simpa using hi) hf
  intro c a k c' h
  unfold see at h
  cases s with
  | src x => simp at h
  | tmp x =>
    cases h
    refine ⟨Nat.le_refl _, Nat.le_refl _, fun l => by simp [cnt], fun i hi => ?_⟩
    simpa [seenIds] using hi

end SOk

variable {pl : Nat → Bool} {A : List Nat}

/-- The deferred blocks on the stack are fit to be emitted. -/
def DefOk (pl : Nat → Bool) (A : List Nat) (ds : List Body) : Prop :=
  ∀ d ∈ ds, safeB pl d = true ∧ goodB pl A false d = true ∧ ∀ x ∈ asgB d, x ∈ A

def ScopesOk (pl : Nat → Bool) (A : List Nat) (ss : List Scope) : Prop :=
  ∀ s ∈ ss, DefOk pl A s.defers

theorem ScopesOk.pending {ss : List Scope} (h : ScopesOk pl A ss) (f : Scope → Nat) (d : Nat) :
    DefOk pl A (pending f d ss) := by
  intro b hb
  obtain ⟨s, hs, hb⟩ := List.mem_flatMap.1 hb
  exact h s (List.mem_filter.1 hs).1 b hb

theorem ScopesOk.pendingAll {ss : List Scope} (h : ScopesOk pl A ss) :
    DefOk pl A (pendingAll ss) := by
  intro b hb
  obtain ⟨s, hs, hb⟩ := List.mem_flatMap.1 hb
  exact h s hs b hb

/-- All of the compiler, at recursion bound `n`. -/
structure Stat (pl : Nat → Bool) (A : List Nat) (n : Nat) : Prop where
  e : ∀ Γ tgt rt e, ScopesOk pl A Γ.scopes → goodE pl A rt e = true →
    SOk (linE n Γ tgt e) (fun _ => 0) (idsE e)
  fl : ∀ Γ fl, ScopesOk pl A Γ.scopes → SOk (linFail n Γ fl) (fun _ => 0) []
  a : ∀ Γ rt a, ScopesOk pl A Γ.scopes → goodA pl A rt a = true →
    SOk (linA n Γ a) (fun _ => 0) (idsA a)
  k : ∀ Γ sub lh a, ScopesOk pl A Γ.scopes → goodK pl A a = true →
    SOk (linK n Γ sub lh a) (fun _ => 0) (idsA a)
  c : ∀ Γ sub le a, ScopesOk pl A Γ.scopes → goodC pl A a = true →
    SOk (linC n Γ sub le a) (fun _ => 0) (idsC a)
  j : ∀ Γ rt e t i, ScopesOk pl A Γ.scopes → goodE pl A rt e = true →
    SOk (linJ n Γ e t i) (fun _ => 0) (idsE e)
  s : ∀ Γ rt s, ScopesOk pl A Γ.scopes → goodS pl A rt s = true →
    SOk (linS n Γ s) (fun _ => 0) (idsS s)
  b : ∀ Γ rt b, ScopesOk pl A Γ.scopes → goodB pl A rt b = true →
    SOk (linB n Γ b) (fun _ => 0) (idsB b)
  l : ∀ Γ rt b, ScopesOk pl A Γ.scopes → goodB pl A rt b = true →
    SOk (linL n Γ b) (fun _ => 0) (idsB b)
  u : ∀ Γ ds, ScopesOk pl A Γ.scopes → DefOk pl A ds → SOk (unw n Γ ds) (fun _ => 0) []

/-- Conditions compared with a subject are compiled like the condition. -/
theorem SOk.wrap {n : Nat} (ih : ∀ m, m ≤ n → ∀ Γ tgt rt e, ScopesOk pl A Γ.scopes →
      goodE pl A rt e = true → SOk (linE m Γ tgt e) (fun _ => 0) (idsE e))
    {Γ : Ctx} (hΓ : ScopesOk pl A Γ.scopes) {rt : Bool} {e : Expr} (he : goodE pl A rt e = true)
    (k : Kind) (subs : List Nat) : ∀ m, m ≤ n → ∀ tgt, SOk (linE m Γ tgt (wrap k e subs)) (fun _ => 0) (idsE e) := by
  have cmpOk : ∀ (e' : Expr), (∀ m, m ≤ n → ∀ tgt, SOk (linE m Γ tgt e') (fun _ => 0) (idsE e)) →
      ∀ k s m, m ≤ n → ∀ tgt, SOk (linE m Γ tgt (.cmp k .ee e' (.var (.tmp s)))) (fun _ => 0) (idsE e) := by
    intro e' he' k s m hm tgt
    cases m with
    | zero => simp only [linE]; exact SOk.fail
    | succ m =>
      simp only [linE]
      refine SOk.bindTarget fun t => SOk.bind (he' m (by omega) none) (fun _ h => h) fun a =>
        SOk.bindNeed fun a => SOk.bind (ids' := []) ?_ (by simp) fun b => SOk.bindNeed fun b =>
        SOk.bindEmit (by simp [cnt]) (SOk.pure _)
      cases m with
      | zero => simp only [linE]; exact SOk.fail
      | succ m => simp only [linE]; exact SOk.superMove
  have base : ∀ m, m ≤ n → ∀ tgt, SOk (linE m Γ tgt e) (fun _ => 0) (idsE e) :=
    fun m hm tgt => ih m hm Γ tgt rt e hΓ he
  cases subs with
  | nil => exact base
  | cons s rest =>
    show ∀ m, m ≤ n → ∀ tgt, SOk (linE m Γ tgt (rest.foldl _ _)) (fun _ => 0) (idsE e)
    have : ∀ (rest : List Nat) (e' : Expr),
        (∀ m, m ≤ n → ∀ tgt, SOk (linE m Γ tgt e') (fun _ => 0) (idsE e)) →
        ∀ m, m ≤ n → ∀ tgt, SOk (linE m Γ tgt
          (rest.foldl (fun e s => .cmp .s .ee e (.var (.tmp s))) e')) (fun _ => 0) (idsE e) := by
      intro rest
      induction rest with
      | nil => intro e' he'; exact he'
      | cons s' rest ih' =>
        intro e' he'
        exact ih' _ (cmpOk e' he' .s s')
    exact this rest _ (cmpOk e base k s)

theorem ScopesOk.enter {Γ : Ctx} (h : ScopesOk pl A Γ.scopes) :
    ScopesOk pl A (Scope.new Γ :: Γ.scopes) := by
  intro s hs
  rcases List.mem_cons.1 hs with hs | hs
  · subst hs
    intro d hd
    simp [Scope.new] at hd
  · exact h s hs

theorem DefOk.of_good {b : Body} (h : goodS pl A rt (.defer b) = true) :
    safeB pl b = true ∧ goodB pl A false b = true ∧ ∀ x ∈ asgB b, x ∈ A := by
  simp only [goodS, Bool.and_eq_true, List.all_eq_true, List.contains_iff_mem] at h
  exact ⟨h.1.1, h.1.2, h.2⟩

theorem ScopesOk.register {Γ Γ' : Ctx} {d : Body} (h : ScopesOk pl A Γ.scopes)
    (hd : safeB pl d = true ∧ goodB pl A false d = true ∧ ∀ x ∈ asgB d, x ∈ A)
    (hr : register Γ d = some Γ') : ScopesOk pl A Γ'.scopes := by
  unfold Linear.register at hr
  cases hs : Γ.scopes with
  | nil => rw [hs] at hr; simp at hr
  | cons s rest =>
    rw [hs] at hr h
    cases hr
    intro s' hs'
    rcases List.mem_cons.1 hs' with hs' | hs'
    · subst hs'
      intro d' hd'
      rcases List.mem_cons.1 hd' with hd' | hd'
      · subst hd'; exact hd
      · exact h s (by simp) d' hd'
    · exact h s' (List.mem_cons_of_mem _ hs')

theorem goodK_true {a : Args} (e : Expr) (h : goodK pl A (.cons e a) = true) :
    goodE pl A true e = true ∧ goodK pl A a = true := by
  simpa only [goodK, Bool.and_eq_true] using h

macro "cnts" : tactic => `(tactic| (intro l; simp only [cnt, one]; first | omega | (split <;> omega)))

theorem statE (n : Nat) (ih : ∀ m, m ≤ n → Stat pl A m) : ∀ Γ tgt rt e, ScopesOk pl A Γ.scopes →
    goodE pl A rt e = true → SOk (linE (n + 1) Γ tgt e) (fun _ => 0) (idsE e) := by
  have I := ih n (Nat.le_refl n)
  intro Γ tgt rt e hΓ he
  cases e with
  | lit v => simp only [linE]; exact SOk.superMove
  | var x => simp only [linE]; exact SOk.superMove
  | arith o l r =>
    simp only [goodE, Bool.and_eq_true] at he
    simp only [linE, idsE]
    exact SOk.bindTarget fun t => SOk.bind (I.e Γ none rt l hΓ he.1.1) (by simp +contextual) fun a =>
      SOk.bindNeed fun a => SOk.bind (I.e Γ none rt r hΓ he.1.2) (by simp +contextual) fun b =>
      SOk.bindNeed fun b => SOk.bindEmit (by cnts) (SOk.pure _)
  | cmp k c l r =>
    simp only [goodE, Bool.and_eq_true] at he
    simp only [linE, idsE]
    exact SOk.bindTarget fun t => SOk.bind (I.e Γ none rt l hΓ he.1.1) (by simp +contextual) fun a =>
      SOk.bindNeed fun a => SOk.bind (I.e Γ none rt r hΓ he.1.2) (by simp +contextual) fun b =>
      SOk.bindNeed fun b => SOk.bindEmit (by cnts) (SOk.pure _)
  | and l r =>
    simp only [goodE, Bool.and_eq_true] at he
    simp only [linE, idsE]
    exact SOk.bindTarget fun t => SOk.bindL fun e => SOk.bind (I.e Γ none rt l hΓ he.1) (by simp +contextual) fun a =>
      SOk.bindNeed fun a => SOk.bindEmit (by cnts) <|
      SOk.bind (I.e Γ none rt r hΓ he.2) (by simp +contextual) fun b =>
      SOk.bindNeed fun b => SOk.bindEmit (by cnts) (SOk.pure _)
  | or l r =>
    simp only [goodE, Bool.and_eq_true] at he
    simp only [linE, idsE]
    exact SOk.bindTarget fun t => SOk.bindL fun e => SOk.bind (I.e Γ none rt l hΓ he.1) (by simp +contextual) fun a =>
      SOk.bindNeed fun a => SOk.bindEmit (by cnts) <|
      SOk.bind (I.e Γ none rt r hΓ he.2) (by simp +contextual) fun b =>
      SOk.bindNeed fun b => SOk.bindEmit (by cnts) (SOk.pure _)
  | tern c l r =>
    simp only [goodE, Bool.and_eq_true] at he
    simp only [linE, idsE]
    exact SOk.bindTarget fun t => SOk.bindL fun e => SOk.bindL fun e' =>
      SOk.bind (I.e Γ none rt c hΓ he.1.1) (by simp +contextual) fun a =>
      SOk.bindNeed fun a => SOk.bindEmit (by cnts) <|
      SOk.bind (I.e Γ none rt l hΓ he.1.2) (by simp +contextual) fun b =>
      SOk.bindNeed fun b => SOk.bindEmit (by cnts) <|
      SOk.bind (I.e Γ none rt r hΓ he.2) (by simp +contextual) fun b =>
      SOk.bindNeed fun b => SOk.bindEmit (by cnts) (SOk.pure _)
  | call f fl void args =>
    simp only [goodE] at he
    simp only [linE, idsE]
    refine SOk.bind (I.a Γ rt args hΓ he) (fun _ h => h) fun os => ?_
    cases void with
    | true =>
      refine SOk.bindEmit (by cnts) <| SOk.bind (I.fl Γ fl hΓ) (by simp) fun _ => ?_
      cases tgt with
      | none => exact SOk.pure _
      | some t => exact SOk.fail
    | false =>
      exact SOk.bindT fun t => SOk.bindEmit (by cnts) <|
        SOk.bind (I.fl Γ fl hΓ) (by simp) fun _ => SOk.superMove
  | mtch void cs =>
    simp only [goodE] at he
    simp only [linE, idsE]
    refine SOk.bindL fun ls => SOk.bindEmit (by cnts) ?_
    cases void with
    | true =>
      refine SOk.bindL fun le => SOk.bind (I.c _ none le cs hΓ he) (fun _ h => h) fun _ =>
        SOk.bindEmit (by cnts) ?_
      cases tgt with
      | none => exact SOk.pure _
      | some t => exact SOk.fail
    | false =>
      exact SOk.bindTarget fun t => SOk.bindL fun le => SOk.bind (I.c _ none le cs hΓ he)
        (fun _ h => h) fun _ => SOk.bindEmit (by cnts) (SOk.pure _)
  | mtchS id void k s cs =>
    simp only [goodE, Bool.and_eq_true] at he
    simp only [linE, idsE]
    refine SOk.bindL fun ls => SOk.bindEmit (by cnts) ?_
    cases void with
    | true =>
      refine SOk.bindL fun le => SOk.bindT fun t => SOk.bind (I.e _ (some t) rt s hΓ he.1)
        (by simp +contextual) fun _ => SOk.bindSee (by simp) fun subs =>
        SOk.bind (I.c _ _ le cs hΓ he.2) (by simp +contextual) fun _ => SOk.bindEmit (by cnts) ?_
      cases tgt with
      | none => exact SOk.pure _
      | some t => exact SOk.fail
    | false =>
      exact SOk.bindTarget fun t => SOk.bindL fun le => SOk.bindT fun t =>
        SOk.bind (I.e _ (some t) rt s hΓ he.1)
        (by simp +contextual) fun _ => SOk.bindSee (by simp) fun subs =>
        SOk.bind (I.c _ _ le cs hΓ he.2) (by simp +contextual) fun _ =>
        SOk.bindEmit (by cnts) (SOk.pure _)
  | ctch void dflt e x b =>
    simp only [goodE, Bool.and_eq_true] at he
    simp only [linE, idsE]
    refine SOk.bindL fun lc => SOk.bindL fun le => ?_
    cases void with
    | true =>
      refine SOk.bind (I.e _ none rt e hΓ he.1.1) (by simp +contextual) fun _ =>
        SOk.bindEmit (by cnts) <| SOk.bind (I.b _ true b hΓ he.1.2) (by simp +contextual) fun _ =>
        SOk.bindEmit (by cnts) ?_
      cases tgt with
      | none => exact SOk.pure _
      | some t => exact SOk.fail
    | false =>
      refine SOk.bindTarget fun t => SOk.bind (I.e _ (some t) rt e hΓ he.1.1) (by simp +contextual)
        fun _ => SOk.bindEmit (by cnts) ?_
      cases dflt with
      | none =>
        exact SOk.bindEmit (by cnts) <|
          SOk.bind (I.b _ true b hΓ he.1.2) (by simp +contextual) fun _ =>
          SOk.bindEmit (by cnts) (SOk.pure _)
      | some d =>
        exact SOk.bindEmit (by cnts) <| SOk.bindEmit (by cnts) <|
          SOk.bind (I.b _ true b hΓ he.1.2) (by simp +contextual) fun _ =>
          SOk.bindEmit (by cnts) (SOk.pure _)

theorem statS (n : Nat) (I : Stat pl A n) : ∀ Γ rt s, ScopesOk pl A Γ.scopes →
    goodS pl A rt s = true → SOk (linS (n + 1) Γ s) (fun _ => 0) (idsS s) := by
  intro Γ rt s hΓ hs
  cases s with
  | expr e =>
    simp only [goodS] at hs
    simp only [linS, idsS]
    exact SOk.bind (I.e Γ none rt e hΓ hs) (fun _ h => h) fun _ => SOk.pure _
  | set x e =>
    simp only [goodS] at hs
    simp only [linS, idsS]
    exact SOk.bind (I.e Γ none rt e hΓ hs) (fun _ h => h) fun _ => SOk.bindNeed fun o =>
      SOk.emit (by cnts)
  | ite c t e =>
    simp only [goodS, Bool.and_eq_true] at hs
    simp only [linS, idsS]
    refine SOk.bindL fun lk => SOk.bindL fun le => SOk.bindL fun la => ?_
    cases e with
    | nil =>
      exact SOk.bind (I.j Γ rt c le true hΓ hs.1.1.1) (by simp +contextual) fun _ =>
        SOk.bindEmit (by cnts) <| SOk.bind (I.b Γ rt t hΓ hs.1.2) (by simp +contextual) fun _ =>
        SOk.emit (by cnts)
    | cons s rest =>
      exact SOk.bind (I.j Γ rt c la true hΓ hs.1.1.1) (by simp +contextual) fun _ =>
        SOk.bindEmit (by cnts) <| SOk.bind (I.b Γ rt t hΓ hs.1.2) (by simp +contextual) fun _ =>
        SOk.bindEmit (by cnts) <| SOk.bind (I.b Γ rt _ hΓ hs.2) (by simp +contextual) fun _ =>
        SOk.emit (by cnts)
  | forC c b =>
    simp only [goodS, Bool.and_eq_true] at hs
    simp only [linS, idsS]
    exact SOk.bindL fun ls => SOk.bindL fun lk => SOk.bindL fun lc => SOk.bindL fun le =>
      SOk.bindEmit (by cnts) <| SOk.bind (I.b _ rt b hΓ hs.2) (by simp +contextual) fun _ =>
      SOk.bindEmit (by cnts) <| SOk.bind (I.j _ rt c lk false hΓ hs.1) (by simp +contextual) fun _ =>
      SOk.emit (by cnts)
  | forT i c u b =>
    simp only [goodS, Bool.and_eq_true] at hs
    simp only [linS, idsS]
    exact SOk.bindL fun ls => SOk.bindL fun lu => SOk.bindL fun lk => SOk.bindL fun lc =>
      SOk.bindL fun le =>
      SOk.bindEmit (by cnts) <| SOk.bind (I.s _ rt i hΓ hs.1.1.1) (by simp +contextual) fun _ =>
      SOk.bindEmit (by cnts) <| SOk.bind (I.b _ rt b hΓ hs.2) (by simp +contextual) fun _ =>
      SOk.bindEmit (by cnts) <| SOk.bind (I.s _ rt u hΓ hs.1.2) (by simp +contextual) fun _ =>
      SOk.bindEmit (by cnts) <| SOk.bind (I.j _ rt c lk false hΓ hs.1.1.2) (by simp +contextual) fun _ =>
      SOk.emit (by cnts)
  | brk =>
    simp only [linS, idsS]
    exact SOk.bindTop fun l => SOk.bind (I.u Γ _ hΓ (hΓ.pending _ _)) (by simp) fun _ =>
      SOk.emit (by cnts)
  | cont =>
    simp only [linS, idsS]
    exact SOk.bindTop fun l => SOk.bind (I.u Γ _ hΓ (hΓ.pending _ _)) (by simp) fun _ =>
      SOk.emit (by cnts)
  | retV =>
    simp only [linS, idsS]
    exact SOk.bind (I.u Γ _ hΓ hΓ.pendingAll) (by simp) fun _ => SOk.emit (by cnts)
  | retE e =>
    simp only [goodS, Bool.and_eq_true] at hs
    simp only [linS, idsS]
    exact SOk.bind (I.e Γ none rt e hΓ hs.1) (fun _ h => h) fun _ => SOk.bindNeed fun o =>
      SOk.bind (I.u Γ _ hΓ hΓ.pendingAll) (by simp) fun _ => SOk.emit (by cnts)
  | ret e =>
    simp only [goodS, Bool.and_eq_true] at hs
    simp only [linS, idsS]
    refine SOk.bindTop fun l => ?_
    split
    · exact SOk.bind (I.u Γ _ hΓ (hΓ.pending _ _)) (by simp) fun _ =>
        SOk.emit (by cnts)
    · exact SOk.bind (I.e Γ _ rt e hΓ hs.2) (fun _ h => h) fun _ =>
        SOk.bind (I.u Γ _ hΓ (hΓ.pending _ _)) (by simp) fun _ => SOk.emit (by cnts)
  | throw e =>
    simp only [goodS] at hs
    simp only [linS, idsS]
    exact SOk.bind (I.e Γ none rt e hΓ hs) (fun _ h => h) fun _ => SOk.bindNeed fun o =>
      SOk.bindT fun t => SOk.bindEmit (by cnts) <|
      SOk.bind (I.u Γ _ hΓ hΓ.pendingAll) (by simp) fun _ => SOk.emit (by cnts)
  | defer b => simp only [linS]; exact SOk.fail
  | «try» b x h =>
    simp only [goodS, Bool.and_eq_true] at hs
    simp only [linS, idsS]
    exact SOk.bindL fun lc => SOk.bindL fun le =>
      SOk.bind (I.b _ rt b hΓ hs.1) (by simp +contextual) fun _ =>
      SOk.bindEmit (by cnts) <| SOk.bind (I.b _ rt h hΓ hs.2) (by simp +contextual) fun _ =>
      SOk.emit (by cnts)

theorem stat (n : Nat) : Stat pl A n := by
  induction n using Nat.strongRecOn with
  | _ n ih =>
    cases n with
    | zero =>
      constructor <;> intros <;>
        simp only [linE, linFail, linA, linK, linC, linJ, linS, linB, linL, unw] <;> exact SOk.fail
    | succ n =>
      have I := ih n (Nat.lt_succ_self n)
      refine ⟨statE n fun m hm => ih m (Nat.lt_succ_of_le hm), ?_, ?_, ?_, ?_, ?_, statS n I, ?_, ?_, ?_⟩
      · intro Γ fl hΓ
        cases fl with
        | plain => simp only [linFail]; exact SOk.pure _
        | errable =>
          simp only [linFail]
          exact SOk.bindT fun t => SOk.bindL fun l1 => SOk.bindL fun l2 => SOk.bindEmit (by cnts) <|
            SOk.bind (I.u Γ _ hΓ (hΓ.pending _ _)) (by simp) fun _ => SOk.emit (by cnts)
        | panics =>
          simp only [linFail]
          exact SOk.bindT fun t => SOk.bindL fun l1 => SOk.bindL fun l2 => SOk.bindEmit (by cnts) <|
            SOk.bind (I.u Γ _ hΓ (hΓ.pending _ _)) (by simp) fun _ => SOk.emit (by cnts)
      · intro Γ rt a hΓ ha
        cases a with
        | nil => simp only [linA]; exact SOk.pure _
        | cons e rest =>
          simp only [goodA, Bool.and_eq_true] at ha
          simp only [linA, idsA]
          exact SOk.bind (I.e Γ none rt e hΓ ha.1.1) (by simp +contextual) fun _ =>
            SOk.bindNeed fun o => SOk.bindArg fun o =>
            SOk.bind (I.a Γ rt rest hΓ ha.1.2) (by simp +contextual) fun _ => SOk.pure _
      · intro Γ sub lh a hΓ ha
        cases a with
        | nil => simp only [linK]; exact SOk.pure _
        | cons e rest =>
          obtain ⟨h1, h2⟩ := goodK_true e ha
          simp only [linK, idsA]
          refine SOk.bind (ids' := idsE e) ?_ (by simp +contextual) fun _ =>
            SOk.bindNeed fun o => SOk.bindEmit (by cnts) <|
            SOk.mono (I.k Γ sub lh rest hΓ h2) (fun _ => Nat.zero_le _) (by simp +contextual)
          cases sub with
          | none => exact I.e Γ none true e hΓ h1
          | some p =>
            exact SOk.wrap (n := n) (fun m hm => (ih m (Nat.lt_succ_of_le hm)).e) hΓ h1 p.1 p.2 n
              (Nat.le_refl n) none
      · intro Γ sub le a hΓ ha
        cases a with
        | last d ks b =>
          simp only [goodC, Bool.and_eq_true] at ha
          simp only [linC, idsC]
          exact SOk.bindL fun lh => SOk.bindL fun lhe => SOk.bindEmit (by cnts) <|
            SOk.bind (I.b Γ true b hΓ ha.2) (by simp +contextual) fun _ => SOk.emit (by cnts)
        | cons ks b rest =>
          simp only [goodC, Bool.and_eq_true] at ha
          simp only [linC, idsC]
          exact SOk.bindL fun lh => SOk.bindL fun lhe =>
            SOk.bind (I.k Γ sub lh ks hΓ ha.1.1) (by simp +contextual) fun _ =>
            SOk.bindEmit (by cnts) <|
            SOk.bind (I.b Γ true b hΓ ha.1.2) (by simp +contextual) fun _ =>
            SOk.bindEmit (by cnts) <|
            SOk.mono (I.c Γ sub le rest hΓ ha.2) (fun _ => Nat.zero_le _) (by simp +contextual)
      · intro Γ rt e t i hΓ he
        have key : SOk (do
              let o ← linE n Γ none e
              let o ← need o
              emit [.beq (.b (!i)) o t]) (fun _ => 0) (idsE e) :=
          SOk.bind (I.e Γ none rt e hΓ he) (fun _ h => h) fun _ => SOk.bindNeed fun o =>
            SOk.emit (by cnts)
        cases e with
        | cmp k c l r =>
          simp only [linJ]
          split
          · exact key
          · simp only [goodE, Bool.and_eq_true] at he
            simp only [idsE]
            exact SOk.bind (I.e Γ none rt l hΓ he.1.1) (by simp +contextual) fun _ =>
              SOk.bindNeed fun o => SOk.bind (I.e Γ none rt r hΓ he.1.2) (by simp +contextual)
              fun _ => SOk.bindNeed fun o => SOk.emit (by cnts)
        | _ => simp only [linJ]; exact key
      · intro Γ rt b hΓ hb
        simp only [linB]
        exact I.l _ rt b hΓ.enter hb
      · intro Γ rt b hΓ hb
        cases b with
        | nil =>
          simp only [linL]
          split
          · exact SOk.fail
          · rename_i s rest hs
            rw [hs] at hΓ
            exact SOk.mono (I.u _ _ (fun s' hs' => hΓ s' (List.mem_cons_of_mem _ hs'))
              (hΓ s (by simp))) (fun _ => Nat.le_refl _) (by simp)
        | cons s rest =>
          simp only [goodB, Bool.and_eq_true] at hb
          have key : (∀ d, s ≠ .defer d) →
              SOk (linL (n + 1) Γ (.cons s rest)) (fun _ => 0) (idsB (.cons s rest)) := by
            intro hnd
            have e : linL (n + 1) Γ (.cons s rest) = (do linS n Γ s; linL n Γ rest) := by
              cases s <;> first | (exact absurd rfl (hnd _)) | (simp only [linL])
            rw [e]
            simp only [idsB]
            exact SOk.bind (I.s Γ rt s hΓ hb.1) (by simp +contextual) fun _ =>
              SOk.mono (I.l Γ rt rest hΓ hb.2) (fun _ => Nat.le_refl _) (by simp +contextual)
          cases s with
          | defer d =>
            simp only [linL, idsB]
            split
            · exact SOk.fail
            · rename_i Γ' hr
              exact SOk.mono (I.l Γ' rt rest (hΓ.register (DefOk.of_good hb.1) hr) hb.2)
                (fun _ => Nat.le_refl _) (by simp +contextual)
          | _ => exact key (by simp)
      · intro Γ ds hΓ hd
        cases ds with
        | nil => simp only [unw]; exact SOk.pure _
        | cons d ds =>
          simp only [unw]
          have h1 := hd d (by simp)
          refine SOk.bind (I.b Γ false d hΓ h1.2.1) ?_ fun _ =>
            I.u Γ ds hΓ fun d' hd' => hd d' (List.mem_cons_of_mem _ hd')
          rw [safe_idsB d h1.1]
          simp

end Nature.Linear
