import Verif.Json.Strings
namespace Nature.Json

theorem isDigit_iff {c : Byte} : isDigit c = true ↔ 48 ≤ c ∧ c ≤ 57 := by simp [isDigit]

theorem isSpace_iff {c : Byte} : isSpace c = true ↔ c = 32 ∨ c = 9 ∨ c = 10 ∨ c = 13 := by
  simp only [isSpace, Bool.or_eq_true, decide_eq_true_eq]
  constructor
  · rintro (((h | h) | h) | h) <;> simp [h]
  · rintro (h | h | h | h) <;> simp [h]

/-! ### Whitespace -/

theorem skipWs_ws {a : List Byte} (h : Ws a) (s : List Byte) : skipWs (a ++ s) = skipWs s := by
  induction a with
  | nil => rfl
  | cons c a ih =>
    rw [List.cons_append, skipWs, List.dropWhile_cons, if_pos (isSpace_iff.2 (h c (by simp)))]
    exact ih fun x hx => h x (by simp [hx])

theorem skipWs_stop {s : List Byte} (h : ∀ c, s.head? = some c → isSpace c = false) : skipWs s = s := by
  cases s with
  | nil => rfl
  | cons c t => rw [skipWs, List.dropWhile_cons, if_neg (by rw [h c rfl]; decide)]

theorem skipWs_split (s : List Byte) : ∃ a, Ws a ∧ s = a ++ skipWs s := by
  induction s with
  | nil => exact ⟨[], by simp [Ws], rfl⟩
  | cons c s ih =>
    by_cases h : isSpace c = true
    · obtain ⟨a, ha, e⟩ := ih
      refine ⟨c :: a, ?_, ?_⟩
      · intro x hx
        rcases List.mem_cons.1 hx with rfl | hx
        · exact isSpace_iff.1 h
        · exact ha x hx
      · rw [skipWs, List.dropWhile_cons, if_pos h, List.cons_append]
        exact congrArg (c :: ·) e
    · exact ⟨[], by simp [Ws], by rw [skipWs, List.dropWhile_cons, if_neg h]; rfl⟩

theorem skipWs_idem (s : List Byte) : skipWs (skipWs s) = skipWs s := by
  obtain ⟨a, ha, e⟩ := skipWs_split s
  have := skipWs_ws ha (skipWs s)
  rw [← e] at this
  exact this.symm

theorem skipWs_all {a : List Byte} (h : Ws a) : skipWs a = [] := by
  have := skipWs_ws h []
  rwa [List.append_nil] at this

theorem ws_of_skip {a : List Byte} (h : skipWs a = []) : Ws a := by
  obtain ⟨b, hb, e⟩ := skipWs_split a
  rw [h, List.append_nil] at e
  rw [e]; exact hb

theorem ws_nil : Ws [] := by simp [Ws]

theorem ws_append {a b : List Byte} (ha : Ws a) (hb : Ws b) : Ws (a ++ b) := by
  intro c hc
  rcases List.mem_append.1 hc with h | h
  · exact ha c h
  · exact hb c h

/-! ### Fixed bytes -/

theorem strip_sound : ∀ {l s r : List Byte}, stripPrefix l s = some r → s = l ++ r := by
  intro l
  induction l with
  | nil => intro s r h; injection h
  | cons c l ih =>
    intro s r h
    cases s with
    | nil => cases h
    | cons d s =>
      rw [stripPrefix] at h
      by_cases hd : d = c
      · rw [if_pos hd] at h
        rw [ih h, hd]; rfl
      · rw [if_neg hd] at h; cases h

theorem strip_complete : ∀ (l r : List Byte), stripPrefix l (l ++ r) = some r := by
  intro l
  induction l with
  | nil => intro r; rfl
  | cons c l ih => intro r; rw [List.cons_append, stripPrefix, if_pos rfl, ih]

theorem consume_sound {l s r : List Byte} (h : consume l s = some r) : ∃ a, Ws a ∧ s = a ++ (l ++ r) := by
  obtain ⟨a, ha, e⟩ := skipWs_split s
  exact ⟨a, ha, by rw [← strip_sound h]; exact e⟩

theorem consume_complete {a l : List Byte} {c : Byte} (ha : Ws a) (hc : isSpace c = false) (r : List Byte) :
    consume (c :: l) (a ++ (c :: l ++ r)) = some r := by
  rw [consume, skipWs_ws ha, skipWs_stop (s := c :: l ++ r) (fun d hd => by injection hd with hd; rw [← hd]; exact hc),
    strip_complete]

/-- A byte other than the one wanted comes first. -/
theorem consume_none {a r : List Byte} {c d : Byte} (ha : Ws a) (hs : isSpace d = false) (hd : d ≠ c) :
    consume [c] (a ++ d :: r) = none := by
  rw [consume, skipWs_ws ha, skipWs_stop (s := d :: r) (fun x hx => by injection hx with hx; rw [← hx]; exact hs), stripPrefix,
    if_neg hd]

/-! ### Numbers -/

/-- What may come after a number. -/
def NumStop (r : List Byte) : Prop := ∀ c, r.head? = some c → ¬ (48 ≤ c ∧ c ≤ 57) ∧ c ≠ 46 ∧ c ≠ 101 ∧ c ≠ 69

theorem digitRun_sound : ∀ (t : List Byte), Digits (digitRun t).1 ∧ t = (digitRun t).1 ++ (digitRun t).2 := by
  intro t
  induction t with
  | nil => exact ⟨by simp [Digits, digitRun], rfl⟩
  | cons c t ih =>
    rw [digitRun]
    by_cases h : isDigit c = true
    · rw [if_pos h]
      refine ⟨?_, by rw [List.cons_append, ← ih.2]⟩
      intro x hx
      rcases List.mem_cons.1 hx with rfl | hx
      · exact isDigit_iff.1 h
      · exact ih.1 x hx
    · rw [if_neg h]; exact ⟨by simp [Digits], rfl⟩

theorem digitRun_complete : ∀ (ds r : List Byte), Digits ds → (∀ c, r.head? = some c → ¬ (48 ≤ c ∧ c ≤ 57)) →
    digitRun (ds ++ r) = (ds, r) := by
  intro ds
  induction ds with
  | nil =>
    intro r _ hr
    cases r with
    | nil => rfl
    | cons c t =>
      rw [List.nil_append, digitRun, if_neg]
      intro h
      exact hr c rfl (isDigit_iff.1 h)
  | cons c ds ih =>
    intro r hd hr
    rw [List.cons_append, digitRun, if_pos (isDigit_iff.2 (hd c (by simp))), ih r (fun x hx => hd x (by simp [hx])) hr]

theorem digits1_sound {t ds r : List Byte} (h : digits1 t = some (ds, r)) : ds ≠ [] ∧ Digits ds ∧ t = ds ++ r := by
  have hs := digitRun_sound t
  rw [digits1.eq_def] at h
  cases he : digitRun t with
  | mk x y =>
    rw [he] at h hs
    cases x with
    | nil => cases h
    | cons c x =>
      injection h with h
      injection h with h1 h2
      subst h1 h2
      exact ⟨by simp, hs⟩

theorem digits1_complete {ds r : List Byte} (h0 : ds ≠ []) (h : Digits ds) (hr : ∀ c, r.head? = some c → ¬ (48 ≤ c ∧ c ≤ 57)) :
    digits1 (ds ++ r) = some (ds, r) := by
  rw [digits1.eq_def, digitRun_complete ds r h hr]
  cases ds with
  | nil => exact absurd rfl h0
  | cons c ds => rfl

def SignOk (l : List Byte) : Prop := l = [] ∨ l = [45]
def IntOk (l : List Byte) : Prop := l = [48] ∨ ∃ c t, l = c :: t ∧ 49 ≤ c ∧ c ≤ 57 ∧ Digits t
def FracOk (l : List Byte) : Prop := l = [] ∨ ∃ ds, l = 46 :: ds ∧ ds ≠ [] ∧ Digits ds
def ExpOk (l : List Byte) : Prop := l = [] ∨ ∃ e sg ds, l = e :: (sg ++ ds) ∧ (e = 101 ∨ e = 69) ∧
  (sg = [] ∨ sg = [43] ∨ sg = [45]) ∧ ds ≠ [] ∧ Digits ds

theorem num_iff {l : List Byte} : Num l ↔ ∃ sg i f e, l = sg ++ i ++ f ++ e ∧ SignOk sg ∧ IntOk i ∧ FracOk f ∧ ExpOk e := Iff.rfl

theorem numSign_sound (s : List Byte) : SignOk (numSign s).1 ∧ s = (numSign s).1 ++ (numSign s).2 := by
  rw [numSign.eq_def]
  split
  · exact ⟨Or.inr rfl, rfl⟩
  · exact ⟨Or.inl rfl, rfl⟩

theorem numSign_complete {sg r : List Byte} (h : SignOk sg) (hr : r.head? ≠ some 45) : numSign (sg ++ r) = (sg, r) := by
  rcases h with rfl | rfl
  · rw [List.nil_append, numSign.eq_def]
    split
    · exact absurd rfl hr
    · rfl
  · rfl

theorem numInt_sound {s i r : List Byte} (h : numInt s = some (i, r)) : IntOk i ∧ s = i ++ r := by
  cases s with
  | nil => cases h
  | cons c t =>
    rw [numInt.eq_def] at h
    dsimp only at h
    by_cases h48 : c = 48
    · rw [if_pos h48] at h
      subst h48
      cases t with
      | nil => injection h with h; injection h with h1 h2; subst h1 h2; exact ⟨Or.inl rfl, rfl⟩
      | cons d t =>
        dsimp only at h
        by_cases hd : isDigit d = true
        · rw [if_pos hd] at h; cases h
        · rw [if_neg hd] at h
          injection h with h; injection h with h1 h2; subst h1 h2; exact ⟨Or.inl rfl, rfl⟩
    · rw [if_neg h48] at h
      by_cases h49 : 49 ≤ c ∧ c ≤ 57
      · rw [if_pos h49] at h
        injection h with h
        have hs := digitRun_sound t
        have hd : isDigit c = true := isDigit_iff.2 ⟨UInt8.le_trans (by decide) h49.1, h49.2⟩
        rw [digitRun, if_pos hd] at h
        injection h with h1 h2
        subst h1 h2
        exact ⟨Or.inr ⟨c, _, rfl, h49.1, h49.2, hs.1⟩, by rw [List.cons_append, ← hs.2]⟩
      · rw [if_neg h49] at h; cases h

theorem numInt_complete {i r : List Byte} (h : IntOk i) (hr : ∀ c, r.head? = some c → ¬ (48 ≤ c ∧ c ≤ 57)) :
    numInt (i ++ r) = some (i, r) := by
  rcases h with rfl | ⟨c, t, rfl, h1, h2, h3⟩
  · rw [numInt.eq_def]
    cases r with
    | nil => rfl
    | cons d r =>
      show (if (48 : Byte) = 48 then (if isDigit d = true then none else some ([48], d :: r)) else _) = _
      rw [if_pos rfl, if_neg]
      intro hd; exact hr d rfl (isDigit_iff.1 hd)
  · rw [numInt.eq_def]
    have h48 : c ≠ 48 := by rintro rfl; exact absurd h1 (by decide)
    have hd : Digits (c :: t) := by
      intro x hx
      rcases List.mem_cons.1 hx with rfl | hx
      · exact ⟨UInt8.le_trans (by decide) h1, h2⟩
      · exact h3 x hx
    have := digitRun_complete (c :: t) r hd hr
    rw [List.cons_append] at this ⊢
    dsimp only
    rw [if_neg h48, if_pos ⟨h1, h2⟩, this]

theorem numFrac_sound {s f r : List Byte} (h : numFrac s = some (f, r)) : FracOk f ∧ s = f ++ r := by
  rw [numFrac.eq_def] at h
  split at h
  · obtain ⟨⟨ds, r2⟩, h1, h2⟩ := map_some_iff.1 h
    injection h2 with h2 h3
    dsimp only at h2 h3
    subst h2 h3
    obtain ⟨e1, e2, rfl⟩ := digits1_sound h1
    exact ⟨Or.inr ⟨ds, rfl, e1, e2⟩, rfl⟩
  · injection h with h
    injection h with h1 h2
    subst h1 h2
    exact ⟨Or.inl rfl, rfl⟩

theorem numFrac_complete {f r : List Byte} (h : FracOk f) (hr : ∀ c, r.head? = some c → ¬ (48 ≤ c ∧ c ≤ 57) ∧ c ≠ 46) :
    numFrac (f ++ r) = some (f, r) := by
  rcases h with rfl | ⟨ds, rfl, h1, h2⟩
  · rw [List.nil_append, numFrac.eq_def]
    split
    · exact absurd rfl (hr _ rfl).2
    · rfl
  · rw [List.cons_append, numFrac, digits1_complete h1 h2 (fun c hc => (hr c hc).1)]
    rfl

theorem numExpSign_sound (s : List Byte) : ((numExpSign s).1 = [] ∨ (numExpSign s).1 = [43] ∨ (numExpSign s).1 = [45]) ∧
    s = (numExpSign s).1 ++ (numExpSign s).2 := by
  rw [numExpSign.eq_def]
  split
  · exact ⟨Or.inr (Or.inl rfl), rfl⟩
  · exact ⟨Or.inr (Or.inr rfl), rfl⟩
  · exact ⟨Or.inl rfl, rfl⟩

theorem numExpSign_complete {sg r : List Byte} (h : sg = [] ∨ sg = [43] ∨ sg = [45]) (hr : r.head? ≠ some 43) (hr2 : r.head? ≠ some 45) :
    numExpSign (sg ++ r) = (sg, r) := by
  rcases h with rfl | rfl | rfl
  · rw [List.nil_append, numExpSign.eq_def]
    split
    · exact absurd rfl hr
    · exact absurd rfl hr2
    · rfl
  · rfl
  · rfl

theorem numExp_sound {s e r : List Byte} (h : numExp s = some (e, r)) : ExpOk e ∧ s = e ++ r := by
  cases s with
  | nil =>
    injection h with h
    injection h with h1 h2
    subst h1 h2
    exact ⟨Or.inl rfl, rfl⟩
  | cons c t =>
    rw [numExp.eq_def] at h
    dsimp only at h
    by_cases hc : c = 101 ∨ c = 69
    · rw [if_pos hc] at h
      obtain ⟨⟨ds, r2⟩, h1, h2⟩ := map_some_iff.1 h
      injection h2 with h2 h3
      dsimp only at h2 h3
      subst h2 h3
      obtain ⟨e1, e2, e3⟩ := digits1_sound h1
      have hs := numExpSign_sound t
      refine ⟨Or.inr ⟨c, _, ds, rfl, hc, hs.1, e1, e2⟩, ?_⟩
      rw [List.cons_append, List.append_assoc, ← e3, ← hs.2]
    · rw [if_neg hc] at h
      injection h with h
      injection h with h1 h2
      subst h1 h2
      exact ⟨Or.inl rfl, rfl⟩

theorem digits_head {ds r : List Byte} (h0 : ds ≠ []) (h : Digits ds) : (ds ++ r).head? ≠ some 43 ∧ (ds ++ r).head? ≠ some 45 := by
  cases ds with
  | nil => exact absurd rfl h0
  | cons c ds =>
    have := h c (by simp)
    constructor
    · intro e; injection e with e; subst e; exact absurd this.1 (by decide)
    · intro e; injection e with e; subst e; exact absurd this.1 (by decide)

theorem numExp_complete {e r : List Byte} (h : ExpOk e) (hr : NumStop r) : numExp (e ++ r) = some (e, r) := by
  rcases h with rfl | ⟨c, sg, ds, rfl, hc, hs, h1, h2⟩
  · cases r with
    | nil => rfl
    | cons d r =>
      have := hr d rfl
      rw [List.nil_append, numExp.eq_def]
      dsimp only
      rw [if_neg]
      rintro (h | h)
      · exact this.2.2.1 h
      · exact this.2.2.2 h
  · rw [List.cons_append, numExp.eq_def]
    dsimp only
    rw [if_pos hc, List.append_assoc, numExpSign_complete hs (digits_head h1 h2).1 (digits_head h1 h2).2,
      digits1_complete h1 h2 (fun c hc => (hr c hc).1)]
    rfl

theorem numberToken_sound {s l r : List Byte} (h : numberToken s = some (l, r)) : Num l ∧ ∃ a, Ws a ∧ s = a ++ (l ++ r) := by
  rw [numberToken] at h
  obtain ⟨a, ha, e⟩ := skipWs_split s
  have h0 := numSign_sound (skipWs s)
  obtain ⟨⟨i, s1⟩, h1, h⟩ := Option.bind_eq_some_iff.1 h
  obtain ⟨⟨f, s2⟩, h2, h⟩ := Option.bind_eq_some_iff.1 h
  obtain ⟨⟨x, s3⟩, h3, h⟩ := Option.bind_eq_some_iff.1 h
  injection h with h
  injection h with h4 h5
  obtain ⟨a1, a2⟩ := numInt_sound h1
  obtain ⟨b1, b2⟩ := numFrac_sound h2
  obtain ⟨c1, c2⟩ := numExp_sound h3
  dsimp only at *
  subst h5
  refine ⟨num_iff.2 ⟨_, i, f, x, h4.symm, h0.1, a1, b1, c1⟩, a, ha, ?_⟩
  rw [← h4]
  simp only [List.append_assoc]
  rw [← c2, ← b2, ← a2, ← h0.2]
  exact e

theorem int_head {i r : List Byte} (h : IntOk i) : ∃ c t, i ++ r = c :: t ∧ 48 ≤ c ∧ c ≤ 57 := by
  rcases h with rfl | ⟨c, t, rfl, h1, h2, _⟩
  · exact ⟨48, r, rfl, by decide, by decide⟩
  · exact ⟨c, t ++ r, rfl, UInt8.le_trans (by decide) h1, h2⟩

/-- The first byte of a number. -/
theorem num_head {l : List Byte} (h : Num l) : ∃ c t, l = c :: t ∧ (c = 45 ∨ (48 ≤ c ∧ c ≤ 57)) := by
  obtain ⟨sg, i, f, e, rfl, h1, h2, h3, h4⟩ := num_iff.1 h
  obtain ⟨c, t, he, hc⟩ := int_head (r := f ++ e) h2
  rcases h1 with rfl | rfl
  · exact ⟨c, t, by rw [← he]; simp, Or.inr hc⟩
  · exact ⟨45, c :: t, by rw [← he]; simp, Or.inl rfl⟩

theorem frac_stop {f r : List Byte} (h : FracOk f) (hr : ∀ c, r.head? = some c → ¬ (48 ≤ c ∧ c ≤ 57)) :
    ∀ c, (f ++ r).head? = some c → ¬ (48 ≤ c ∧ c ≤ 57) := by
  rcases h with rfl | ⟨ds, rfl, _⟩
  · exact hr
  · intro c hc
    injection hc with hc
    subst hc
    decide

theorem exp_stop {e r : List Byte} (h : ExpOk e) (hr : NumStop r) : ∀ c, (e ++ r).head? = some c → ¬ (48 ≤ c ∧ c ≤ 57) ∧ c ≠ 46 := by
  rcases h with rfl | ⟨d, sg, ds, rfl, hd, _⟩
  · exact fun c hc => ⟨(hr c hc).1, (hr c hc).2.1⟩
  · intro c hc
    injection hc with hc
    subst hc
    rcases hd with rfl | rfl
    · exact ⟨by decide, by decide⟩
    · exact ⟨by decide, by decide⟩

theorem digit_notSpace {c : Byte} (h : c = 45 ∨ (48 ≤ c ∧ c ≤ 57)) : isSpace c = false := by
  cases hs : isSpace c with
  | false => rfl
  | true =>
    exfalso
    rcases isSpace_iff.1 hs with rfl | rfl | rfl | rfl <;> rcases h with h | h <;> first | exact absurd h (by decide) | exact absurd h.1 (by decide)

theorem numberToken_complete {l r : List Byte} (h : Num l) (hr : NumStop r) : numberToken (l ++ r) = some (l, r) := by
  obtain ⟨c, t, he, hc⟩ := num_head h
  have hw : skipWs (l ++ r) = l ++ r := skipWs_stop (fun d hd => by
    rw [he, List.cons_append] at hd
    injection hd with hd
    rw [← hd]
    exact digit_notSpace hc)
  obtain ⟨sg, i, f, e, rfl, h1, h2, h3, h4⟩ := num_iff.1 h
  rw [numberToken, hw]
  have e1 : sg ++ i ++ f ++ e ++ r = sg ++ (i ++ (f ++ (e ++ r))) := by simp
  have hs : numSign (sg ++ (i ++ (f ++ (e ++ r)))) = (sg, i ++ (f ++ (e ++ r))) := numSign_complete h1 (by
    obtain ⟨c, t, he, hc⟩ := int_head (r := f ++ (e ++ r)) h2
    rw [he]
    intro hh
    injection hh with hh
    subst hh
    exact absurd hc.1 (by decide))
  rw [e1, hs]
  dsimp only
  rw [numInt_complete h2 (frac_stop h3 (fun c hc => (exp_stop h4 hr c hc).1))]
  dsimp only [Option.bind_some]
  rw [numFrac_complete h3 (exp_stop h4 hr)]
  dsimp only [Option.bind_some]
  rw [numExp_complete h4 hr]
  rfl

end Nature.Json
