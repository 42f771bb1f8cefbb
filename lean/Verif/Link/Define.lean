import Verif.Link.Entries

/-!
# The table of definitions
-/

namespace Nature.Link

open Spec (Before)

/-- The alignment a request asks for. -/
def al (align : Nat) : Nat := if align ≠ 0 then align else 1

/-- What the record of the name `n` says about the symbols `L` that have been gone through. -/
structure Told (L : List (Pos × Sym)) (n : String) (g : Global) : Prop where
  noneRegular : g.definition = none → ∀ p w, (p, (⟨n, .regular, w⟩ : Sym)) ∉ L
  common : g.definition = none → (g.common = true ↔
    ∃ p size align tls w, (p, (⟨n, .common size align tls, w⟩ : Sym)) ∈ L)
  commonReference : g.definition = none → (g.commonReference = true ↔
    ∃ p size align tls, (p, (⟨n, .common size align tls, false⟩ : Sym)) ∈ L)
  bounds : g.definition = none → ∀ p size align tls w,
    (p, (⟨n, .common size align tls, w⟩ : Sym)) ∈ L →
      size ≤ g.commonSize ∧ al align ≤ g.commonAlign ∧ tls = g.commonTls
  sizeHit : g.definition = none → g.common = true →
    ∃ p align tls w, (p, (⟨n, .common g.commonSize align tls, w⟩ : Sym)) ∈ L
  alignHit : g.definition = none → g.common = true →
    ∃ p size align tls w, al align = g.commonAlign ∧
      (p, (⟨n, .common size align tls, w⟩ : Sym)) ∈ L
  zero : g.definition = none → g.common = false → g.commonSize = 0 ∧ g.commonAlign = 0
  notCommon : g.definition ≠ none → g.common = false
  hit : ∀ p, g.definition = some p → (p, (⟨n, .regular, g.definitionWeak⟩ : Sym)) ∈ L
  strong : ∀ p, g.definition = some p → g.definitionWeak = false →
    ∀ q, (q, (⟨n, .regular, false⟩ : Sym)) ∈ L → q = p
  weak : ∀ p, g.definition = some p → g.definitionWeak = true →
    (∀ q, (q, (⟨n, .regular, false⟩ : Sym)) ∉ L) ∧
      ∀ q, (q, (⟨n, .regular, true⟩ : Sym)) ∈ L → q = p ∨ Before p q

theorem told_nil (n : String) : Told [] n {} := by
  constructor <;> simp

/-- Symbols of other names do not matter. -/
theorem told_other (L : List (Pos × Sym)) (n : String) (g : Global) (e : Pos × Sym)
    (hn : e.2.name ≠ n) (h : Told L n g) : Told (L ++ [e]) n g := by
  have key : ∀ p k w, (p, (⟨n, k, w⟩ : Sym)) ∈ L ++ [e] ↔ (p, (⟨n, k, w⟩ : Sym)) ∈ L := by
    intro p k w
    simp only [List.mem_append, List.mem_singleton]
    constructor
    · rintro (h | h)
      · exact h
      · exact absurd (by rw [← h]) hn
    · exact Or.inl
  obtain ⟨h1, h2, h3, h4, h5, h6, h0, h7, h8, h9, h10⟩ := h
  constructor <;> (try simp only [key]) <;> assumption

/-- Nor do references. -/
theorem told_undefined (L : List (Pos × Sym)) (n : String) (g : Global) (e : Pos × Sym) (u : Bool)
    (hu : e.2.kind = .undefined u) (h : Told L n g) : Told (L ++ [e]) n g := by
  have k1 : ∀ p w, (p, (⟨n, .regular, w⟩ : Sym)) ∈ L ++ [e] ↔ (p, (⟨n, .regular, w⟩ : Sym)) ∈ L := by
    intro p w
    simp only [List.mem_append, List.mem_singleton]
    constructor
    · rintro (h | h)
      · exact h
      · rw [← h] at hu; simp at hu
    · exact Or.inl
  have k2 : ∀ p a b c w, (p, (⟨n, .common a b c, w⟩ : Sym)) ∈ L ++ [e] ↔
      (p, (⟨n, .common a b c, w⟩ : Sym)) ∈ L := by
    intro p a b c w
    simp only [List.mem_append, List.mem_singleton]
    constructor
    · rintro (h | h)
      · exact h
      · rw [← h] at hu; simp at hu
    · exact Or.inl
  obtain ⟨h1, h2, h3, h4, h5, h6, h0, h7, h8, h9, h10⟩ := h
  constructor <;> (try simp only [k1, k2]) <;> assumption

theorem told_common (L : List (Pos × Sym)) (n : String) (g : Global) (p : Pos)
    (size align : Nat) (tls w : Bool) (h : Told L n g) :
    match recordDefinition g p ⟨n, .common size align tls, w⟩ with
    | .ok g' => Told (L ++ [(p, ⟨n, .common size align tls, w⟩)]) n g' ∧
        g'.strongReference = g.strongReference ∧ g'.entryReference = g.entryReference
    | .error e => e = .tlsConflict n ∧ ∃ q a b w', (q, (⟨n, .common a b (!tls), w'⟩ : Sym)) ∈ L := by
  obtain ⟨h1, h2, h3, h4, h5, h6, h0, h7, h8, h9, h10⟩ := h
  have kr : ∀ q w', (q, (⟨n, .regular, w'⟩ : Sym)) ∈ L ++ [(p, ⟨n, .common size align tls, w⟩)] ↔
      (q, (⟨n, .regular, w'⟩ : Sym)) ∈ L := by
    intro q w'; simp
  simp only [recordDefinition]
  rcases hd : g.definition with _ | d
  · simp only [Option.isNone_none, if_true]
    by_cases hc : g.common = true ∧ g.commonTls ≠ tls
    · rw [if_pos hc]
      refine ⟨rfl, ?_⟩
      obtain ⟨q, a, b, c, w', hm⟩ := (h2 hd).mp hc.1
      have := (h4 hd q a b c w' hm).2.2
      refine ⟨q, a, b, w', ?_⟩
      have e : (!tls) = c := by
        rw [this]; have := hc.2
        revert this; cases g.commonTls <;> cases tls <;> simp
      rw [e]; exact hm
    · rw [if_neg hc]
      have hal : (if align ≠ 0 then align else 1) = al align := rfl
      simp only [hal]
      refine ⟨?_, trivial, trivial⟩
      have htls : g.common = true → g.commonTls = tls := fun x =>
        Decidable.byContradiction fun y => hc ⟨x, y⟩
      have hnc : ∀ q a b c w', (q, (⟨n, .common a b c, w'⟩ : Sym)) ∈ L → g.common = true :=
        fun q a b c w' hm => (h2 hd).mpr ⟨q, a, b, c, w', hm⟩
      refine ⟨?_, ?_, ?_, ?_, ?_, ?_, ?_, ?_, ?_, ?_, ?_⟩
      · intro _ q w'; rw [kr]; exact h1 hd q w'
      · intro _
        simp only [true_iff]
        exact ⟨p, size, align, tls, w, by simp⟩
      · intro _
        simp only
        constructor
        · intro hx
          cases w with
          | false => exact ⟨p, size, align, tls, by simp⟩
          | true =>
            simp only [Bool.not_true, Bool.false_eq_true, if_false] at hx
            obtain ⟨q, a, b, c, hm⟩ := (h3 hd).mp hx
            exact ⟨q, a, b, c, by simp [hm]⟩
        · rintro ⟨q, a, b, c, hm⟩
          simp only [List.mem_append, List.mem_singleton, Prod.mk.injEq, Sym.mk.injEq] at hm
          rcases hm with hm | hm
          · have := (h3 hd).mpr ⟨q, a, b, c, hm⟩
            rw [this]; simp
          · have : w = false := hm.2.2.2.symm
            simp [this]
      · intro _ q a b c w' hm
        simp only [List.mem_append, List.mem_singleton, Prod.mk.injEq, Sym.mk.injEq,
          Kind.common.injEq] at hm
        rcases hm with hm | ⟨_, _, ⟨rfl, rfl, rfl⟩, _⟩
        · obtain ⟨b1, b2, b3⟩ := h4 hd q a b c w' hm
          have := htls (hnc _ _ _ _ _ hm)
          simp only
          refine ⟨by split <;> omega, by split <;> omega, by rw [b3, this]⟩
        · simp only
          refine ⟨by split <;> omega, by split <;> omega, trivial⟩
      · intro _ _
        simp only
        split
        · exact ⟨p, align, tls, w, by simp⟩
        · rename_i hle
          by_cases hg : g.common = true
          · obtain ⟨q, b, c, w', hm⟩ := h5 hd hg
            exact ⟨q, b, c, w', by simp [hm]⟩
          · have := (h0 hd (by simpa using hg)).1
            exact ⟨p, align, tls, w, by simp; omega⟩
      · intro _ _
        simp only
        split
        · exact ⟨p, size, align, tls, w, rfl, by simp⟩
        · rename_i hle
          by_cases hg : g.common = true
          · obtain ⟨q, a, b, c, w', he, hm⟩ := h6 hd hg
            exact ⟨q, a, b, c, w', he, by simp [hm]⟩
          · have := (h0 hd (by simpa using hg)).2
            have : 1 ≤ al align := by unfold al; split <;> omega
            omega
      · intro _ hx; simp at hx
      · intro hx; simp at hx
      · intro q hq; simp at hq
      · intro q hq; simp at hq
      · intro q hq; simp at hq
  · simp only [Option.isNone_some, Bool.false_eq_true, if_false]
    refine ⟨?_, trivial, trivial⟩
    refine ⟨?_, ?_, ?_, ?_, ?_, ?_, ?_, h7, ?_, ?_, ?_⟩
    · intro hx; rw [hd] at hx; simp at hx
    · intro hx; rw [hd] at hx; simp at hx
    · intro hx; rw [hd] at hx; simp at hx
    · intro hx; rw [hd] at hx; simp at hx
    · intro hx; rw [hd] at hx; simp at hx
    · intro hx; rw [hd] at hx; simp at hx
    · intro hx; rw [hd] at hx; simp at hx
    · intro q hq; rw [kr]; exact h8 q hq
    · intro q hq hw r hr; rw [kr] at hr; exact h9 q hq hw r hr
    · intro q hq hw
      simp only [kr]
      exact h10 q hq hw

theorem told_regular (L : List (Pos × Sym)) (n : String) (g : Global) (p : Pos) (w : Bool)
    (hb : ∀ e ∈ L, Before e.1 p) (h : Told L n g) :
    match recordDefinition g p ⟨n, .regular, w⟩ with
    | .ok g' => Told (L ++ [(p, ⟨n, .regular, w⟩)]) n g' ∧
        g'.strongReference = g.strongReference ∧ g'.entryReference = g.entryReference
    | .error e => e = .duplicate n ∧ w = false ∧ ∃ q, (q, (⟨n, .regular, false⟩ : Sym)) ∈ L := by
  obtain ⟨h1, h2, h3, h4, h5, h6, h0, h7, h8, h9, h10⟩ := h
  have kr : ∀ q w', (q, (⟨n, .regular, w'⟩ : Sym)) ∈ L ++ [(p, ⟨n, .regular, w⟩)] ↔
      (q, (⟨n, .regular, w'⟩ : Sym)) ∈ L ∨ q = p ∧ w' = w := by
    intro q w'; simp
  simp only [recordDefinition]
  rcases hd : g.definition with _ | d
  · simp only [Option.isNone_none, if_true]
    refine ⟨?_, trivial, trivial⟩
    refine ⟨?_, ?_, ?_, ?_, ?_, ?_, ?_, fun _ => rfl, ?_, ?_, ?_⟩
    · intro hx; simp at hx
    · intro hx; simp at hx
    · intro hx; simp at hx
    · intro hx; simp at hx
    · intro hx; simp at hx
    · intro hx; simp at hx
    · intro hx; simp at hx
    · intro q hq
      have : p = q := by simpa using hq
      rw [kr]; exact Or.inr ⟨this.symm, rfl⟩
    · intro q hq hw r hr
      have : p = q := by simpa using hq
      rw [kr] at hr
      rcases hr with hr | hr
      · exact absurd hr (h1 hd r false)
      · rw [hr.1, this]
    · intro q hq hw
      have e : p = q := by simpa using hq
      simp only at hw
      constructor
      · intro r hr
        rw [kr] at hr
        rcases hr with hr | hr
        · exact absurd hr (h1 hd r false)
        · rw [hw] at hr; simp at hr
      · intro r hr
        rw [kr] at hr
        rcases hr with hr | hr
        · exact absurd hr (h1 hd r true)
        · left; rw [hr.1, e]
  · simp only [Option.isNone_some, Bool.false_eq_true, if_false]
    rcases hgw : g.definitionWeak with _ | _
    · cases w with
      | false =>
        simp
        have := h8 d hd
        rw [hgw] at this
        exact ⟨d.1, d.2, this⟩
      | true =>
        simp
        refine ⟨?_, ?_, ?_, ?_, ?_, ?_, ?_, h7, ?_, ?_, ?_⟩
        · intro hx; rw [hd] at hx; simp at hx
        · intro hx; rw [hd] at hx; simp at hx
        · intro hx; rw [hd] at hx; simp at hx
        · intro hx; rw [hd] at hx; simp at hx
        · intro hx; rw [hd] at hx; simp at hx
        · intro hx; rw [hd] at hx; simp at hx
        · intro hx; rw [hd] at hx; simp at hx
        · intro q hq; rw [kr]; exact Or.inl (h8 q hq)
        · intro q hq hw r hr
          rw [kr] at hr
          rcases hr with hr | hr
          · exact h9 q hq hw r hr
          · simp at hr
        · intro q hq hw; rw [hgw] at hw; simp at hw
    · obtain ⟨k1, k2⟩ := h10 d hd hgw
      cases w with
      | false =>
        simp
        refine ⟨?_, ?_, ?_, ?_, ?_, ?_, ?_, fun _ => rfl, ?_, ?_, ?_⟩
        · intro hx; simp at hx
        · intro hx; simp at hx
        · intro hx; simp at hx
        · intro hx; simp at hx
        · intro hx; simp at hx
        · intro hx; simp at hx
        · intro hx; simp at hx
        · intro q hq
          have : p = q := by simpa using hq
          rw [kr]; exact Or.inr ⟨this.symm, rfl⟩
        · intro q hq hw r hr
          have : p = q := by simpa using hq
          rw [kr] at hr
          rcases hr with hr | hr
          · exact absurd hr (k1 r)
          · rw [hr.1, this]
        · intro q hq hw; simp at hw
      | true =>
        simp
        refine ⟨?_, ?_, ?_, ?_, ?_, ?_, ?_, h7, ?_, ?_, ?_⟩
        · intro hx; rw [hd] at hx; simp at hx
        · intro hx; rw [hd] at hx; simp at hx
        · intro hx; rw [hd] at hx; simp at hx
        · intro hx; rw [hd] at hx; simp at hx
        · intro hx; rw [hd] at hx; simp at hx
        · intro hx; rw [hd] at hx; simp at hx
        · intro hx; rw [hd] at hx; simp at hx
        · intro q hq; rw [kr]; exact Or.inl (h8 q hq)
        · intro q hq hw; rw [hgw] at hw; simp at hw
        · intro q hq hw
          have e : d = q := by rw [hd] at hq; simpa using hq
          subst e
          constructor
          · intro r hr
            rw [kr] at hr
            rcases hr with hr | hr
            · exact k1 r hr
            · simp at hr
          · intro r hr
            rw [kr] at hr
            rcases hr with hr | hr
            · exact k2 r hr
            · right; rw [hr.1]; exact hb _ (h8 d hq)

/-- Why recording the definitions of a list of symbols fails. -/
def Clash (L : List (Pos × Sym)) : Err → Prop
  | .tlsConflict n => ∃ p q a b a' b' w w' tls, (p, (⟨n, .common a b tls, w⟩ : Sym)) ∈ L ∧
      (q, (⟨n, .common a' b' (!tls), w'⟩ : Sym)) ∈ L
  | .duplicate n => ∃ p q, p ≠ q ∧ (p, (⟨n, .regular, false⟩ : Sym)) ∈ L ∧
      (q, (⟨n, .regular, false⟩ : Sym)) ∈ L
  | _ => False

theorem Clash.mono (L L' : List (Pos × Sym)) (h : ∀ x ∈ L, x ∈ L') (e : Err) (hc : Clash L e) :
    Clash L' e := by
  cases e with
  | tlsConflict n =>
    obtain ⟨p, q, a, b, a', b', w, w', tls, h1, h2⟩ := hc
    exact ⟨p, q, a, b, a', b', w, w', tls, h _ h1, h _ h2⟩
  | duplicate n =>
    obtain ⟨p, q, h0, h1, h2⟩ := hc
    exact ⟨p, q, h0, h _ h1, h _ h2⟩
  | undefinedSymbol n => exact hc
  | endless => exact hc

theorem Before.ne {p q : Pos} (h : Before p q) : p ≠ q := by
  rintro rfl
  rcases h with h | h
  · omega
  · omega

theorem define_told (L : List (Pos × Sym)) (t : Table) (e : Pos × Sym)
    (hb : ∀ x ∈ L, Before x.1 e.1) (h : ∀ n, Told L n (t n)) :
    match define t e with
    | .ok t' => (∀ n, Told (L ++ [e]) n (t' n)) ∧
        ∀ n, (t' n).strongReference = (t n).strongReference ∧
          (t' n).entryReference = (t n).entryReference
    | .error err => Clash (L ++ [e]) err := by
  obtain ⟨p, n, k, w⟩ := e
  unfold define
  simp only
  have hset : ∀ g, Told (L ++ [(p, ⟨n, k, w⟩)]) n g → ∀ m,
      Told (L ++ [(p, ⟨n, k, w⟩)]) m ((t.set n g) m) := by
    intro g hg m
    unfold Table.set
    split
    · rename_i e; rw [e]; exact hg
    · rename_i hm
      exact told_other L m (t m) _ (fun x => hm x.symm) (h m)
  have hfl : ∀ g : Global, g.strongReference = (t n).strongReference →
      g.entryReference = (t n).entryReference → ∀ m,
      ((t.set n g) m).strongReference = (t m).strongReference ∧
        ((t.set n g) m).entryReference = (t m).entryReference := by
    intro g h1 h2 m
    unfold Table.set
    split
    · rename_i e; rw [e]; exact ⟨h1, h2⟩
    · exact ⟨rfl, rfl⟩
  cases k with
  | undefined u =>
    simp only [recordDefinition]
    exact ⟨hset _ (told_undefined L n (t n) _ u rfl (h n)), hfl _ rfl rfl⟩
  | common a b c =>
    have hc := told_common L n (t n) p a b c w (h n)
    rcases hr : recordDefinition (t n) p ⟨n, .common a b c, w⟩ with e | g
    · rw [hr] at hc
      obtain ⟨rfl, q, a', b', w', hm⟩ := hc
      exact ⟨p, q, a, b, a', b', w, w', c, by simp, by simp [hm]⟩
    · rw [hr] at hc
      exact ⟨hset _ hc.1, hfl _ hc.2.1 hc.2.2⟩
  | regular =>
    have hc := told_regular L n (t n) p w hb (h n)
    rcases hr : recordDefinition (t n) p ⟨n, .regular, w⟩ with e | g
    · rw [hr] at hc
      obtain ⟨rfl, rfl, q, hm⟩ := hc
      exact ⟨q, p, Before.ne (hb _ hm), by simp [hm], by simp⟩
    · rw [hr] at hc
      exact ⟨hset _ hc.1, hfl _ hc.2.1 hc.2.2⟩

theorem defineAll_told (L R : List (Pos × Sym)) (t : Table)
    (hp : (L ++ R).Pairwise fun a b => Before a.1 b.1) (h : ∀ n, Told L n (t n)) :
    match defineAll t R with
    | .ok t' => (∀ n, Told (L ++ R) n (t' n)) ∧
        ∀ n, (t' n).strongReference = (t n).strongReference ∧
          (t' n).entryReference = (t n).entryReference
    | .error err => Clash (L ++ R) err := by
  induction R generalizing L t with
  | nil => simpa [defineAll] using h
  | cons e R ih =>
    have hb : ∀ x ∈ L, Before x.1 e.1 := by
      intro x hx
      exact (List.pairwise_append.mp hp).2.2 x hx e (by simp)
    have hd := define_told L t e hb h
    rw [defineAll]
    rcases hr : define t e with err | t'
    · rw [hr] at hd
      simp only at hd ⊢
      refine Clash.mono _ _ ?_ _ hd
      intro x hx
      simp only [List.mem_append, List.mem_cons, List.mem_singleton] at hx ⊢
      rcases hx with hx | hx
      · exact Or.inl hx
      · exact Or.inr (Or.inl (by simpa using hx))
    · rw [hr] at hd
      simp only at hd ⊢
      have e1 : L ++ e :: R = (L ++ [e]) ++ R := by simp
      rw [e1] at hp ⊢
      have := ih (L ++ [e]) t' hp hd.1
      rcases hr2 : defineAll t' R with err | t''
      · rw [hr2] at this; exact this
      · rw [hr2] at this
        simp only at this ⊢
        refine ⟨this.1, fun n => ?_⟩
        rw [(this.2 n).1, (this.2 n).2]
        exact hd.2 n

/-! ## References -/

theorem reference_def (t : Table) (e : Pos × Sym) (n : String) :
    reference t e n = { t n with
      strongReference := ((t n).strongReference || decide (e.2 = ⟨n, .undefined true, false⟩)) } := by
  obtain ⟨p, m, k, w⟩ := e
  unfold reference
  simp only
  have hn : ∀ s : Sym, s ≠ ⟨n, .undefined true, false⟩ → (t n) = { t n with
      strongReference := ((t n).strongReference || decide (s = ⟨n, .undefined true, false⟩)) } := by
    intro s hs
    rw [decide_eq_false hs, Bool.or_false]
  rcases k with u | ⟨a, b, c⟩ | _
  · cases u with
    | false => exact hn _ (by simp)
    | true =>
      cases w with
      | true => exact hn _ (by simp)
      | false =>
        simp only [Bool.not_false, if_true, Table.set]
        by_cases hm : n = m
        · subst hm; simp
        · rw [if_neg hm]
          exact hn _ (by simp; exact fun x => hm x.symm)
  · exact hn _ (by simp)
  · exact hn _ (by simp)

theorem references_def (L : List (Pos × Sym)) (t : Table) (n : String) :
    ∃ b, L.foldl reference t n = { t n with strongReference := b } ∧
      (b = true ↔ (t n).strongReference = true ∨ ∃ p, (p, (⟨n, .undefined true, false⟩ : Sym)) ∈ L) := by
  induction L generalizing t with
  | nil => exact ⟨(t n).strongReference, rfl, by simp⟩
  | cons e L ih =>
    rw [List.foldl_cons]
    obtain ⟨b, h1, h2⟩ := ih (reference t e)
    refine ⟨b, ?_, ?_⟩
    · rw [h1, reference_def]
    · rw [h2, reference_def]
      simp only [Bool.or_eq_true, decide_eq_true_eq, List.mem_cons]
      constructor
      · rintro ((h | h) | ⟨p, h⟩)
        · exact Or.inl h
        · right; exact ⟨e.1, Or.inl (by rw [← h])⟩
        · right; exact ⟨p, Or.inr h⟩
      · rintro (h | ⟨p, h | h⟩)
        · exact Or.inl (Or.inl h)
        · exact Or.inl (Or.inr (by rw [← h]))
        · exact Or.inr ⟨p, h⟩

/-- The references do not matter for the definitions. -/
theorem Told.congr (L : List (Pos × Sym)) (n : String) (g : Global) (a b : Bool) (h : Told L n g) :
    Told L n { g with strongReference := a, entryReference := b } := by
  obtain ⟨h1, h2, h3, h4, h5, h6, h0, h7, h8, h9, h10⟩ := h
  exact ⟨h1, h2, h3, h4, h5, h6, h0, h7, h8, h9, h10⟩

/-- What `rebuild` gives. -/
theorem rebuild_told (objs : List Obj) (entry : String) (sel : Nat → Bool) :
    match rebuild objs entry sel with
    | .ok t => ∀ n, Told (entries objs sel) n (t n) ∧
        ((t n).strongReference = true ↔ Spec.Needs objs entry sel n) ∧
        ((t n).entryReference = true ↔ n = entry)
    | .error err => Clash (entries objs sel) err := by
  have h := defineAll_told [] (entries objs sel) (fun _ => {})
    (by simpa using entries_order objs sel) (fun n => told_nil n)
  rw [List.nil_append] at h
  unfold rebuild
  rcases hr : defineAll (fun _ => {}) (entries objs sel) with err | t
  · rw [hr] at h; exact h
  · rw [hr] at h
    simp only at h ⊢
    intro n
    obtain ⟨b, k1, k2⟩ := references_def (entries objs sel) t n
    have hs : (t n).strongReference = false := (h.2 n).1
    have he : (t n).entryReference = false := (h.2 n).2
    have hneeds : Spec.Needs objs entry sel n ↔ n = entry ∨ b = true := by
      unfold Spec.Needs
      rw [k2, hs]
      simp only [Bool.false_eq_true, false_or, mem_entries]
    unfold Table.set
    by_cases hn : n = entry
    · rw [if_pos hn]
      subst hn
      rw [k1]
      refine ⟨Told.congr _ _ { t n with strongReference := b } _ _
        (Told.congr _ _ (t n) b (t n).entryReference (h.1 n)), ?_, ?_⟩
      · rw [hneeds]; simp
      · simp
    · rw [if_neg hn, k1]
      refine ⟨Told.congr _ _ (t n) b (t n).entryReference (h.1 n), ?_, ?_⟩
      · rw [hneeds]; simp [hn]
      · simp [he, hn]

end Nature.Link
