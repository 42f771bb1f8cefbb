/-
A whole source.
-/
import Verif.Scan.Items
namespace Nature.Scan

/-! ### What stands between tokens -/

theorem skip_line (n : Bool) (t r : List Char) (h : '\n' ∉ t) : skip .line n (t ++ '\n' :: r) = skip .plain true r := by
  induction t with
  | nil => rw [List.nil_append, skip, if_pos rfl]
  | cons c t ih =>
    rw [List.cons_append, skip, if_neg (fun e => h (by simp [e]))]
    exact ih (fun e => h (by simp [e]))

theorem skip_line_end (n : Bool) (t : List Char) (h : '\n' ∉ t) : skip .line n t = .ok (n, []) := by
  induction t with
  | nil => rfl
  | cons c t ih =>
    rw [skip, if_neg (fun e => h (by simp [e]))]
    exact ih (fun e => h (by simp [e]))

theorem skip_block (n : Bool) (r : List Char) : ∀ t : List Char, (∀ u v, t ≠ u ++ '*' :: '/' :: v) →
    skip .block n (t ++ '*' :: '/' :: r) = skip .plain n r := by
  intro t
  induction t with
  | nil => intro _; rw [List.nil_append, skip.eq_def]; simp
  | cons c t ih =>
    intro h
    have ih := ih (fun u v e => h (c :: u) v (by rw [e]; rfl))
    rw [List.cons_append, skip.eq_def]
    dsimp only
    split
    · rename_i hc
      cases t with
      | nil =>
        simp only [List.nil_append] at ih ⊢
        exact ih
      | cons d t =>
        have hd : d ≠ '/' := fun e => h [] t (by rw [hc, e]; rfl)
        simp only [List.cons_append] at ih ⊢
        split
        · rename_i e
          simp only [List.cons.injEq] at e
          exact absurd e.1 hd
        · exact ih
    · exact ih

theorem skip_gap {g : Gap} (h : g.Ok) (n : Bool) (r : List Char) : skip .plain n (g.text ++ r) = skip .plain (n || g.breaks) r := by
  cases g with
  | blank c =>
    simp only [Gap.text, List.cons_append, List.nil_append, Gap.breaks, Bool.or_false]
    rw [skip.eq_def]
    dsimp only
    rw [if_pos]
    rcases h with h | h | h <;> simp [h]
  | newline =>
    simp only [Gap.text, List.cons_append, List.nil_append, Gap.breaks, Bool.or_true]
    rw [skip.eq_def]
    dsimp only
    rw [if_neg (by decide), if_pos rfl]
  | line t =>
    simp only [Gap.text, List.cons_append, List.append_assoc, List.nil_append, Gap.breaks, Bool.or_true]
    rw [skip.eq_def]
    dsimp only
    rw [if_neg (by decide), if_neg (by decide), if_pos rfl]
    exact skip_line n t r h
  | block t =>
    simp only [Gap.text, List.cons_append, List.append_assoc, List.nil_append, Gap.breaks, Bool.or_false]
    rw [skip.eq_def]
    dsimp only
    rw [if_neg (by decide), if_neg (by decide), if_pos rfl]
    exact skip_block n r ('*' :: t) h

theorem skip_gaps {g : List Gap} (h : ∀ x ∈ g, x.Ok) (n : Bool) (r : List Char) :
    skip .plain n (gapText g ++ r) = skip .plain (n || g.any Gap.breaks) r := by
  induction g generalizing n with
  | nil => simp [gapText]
  | cons x g ih =>
    have : gapText (x :: g) ++ r = x.text ++ (gapText g ++ r) := by simp [gapText]
    rw [this, skip_gap (h x (by simp)), ih (fun y hy => h y (by simp [hy]))]
    simp [Bool.or_assoc]

/-- A token starts here: nothing is skipped. -/
def Starts (s : List Char) : Prop :=
  ∃ c r, s = c :: r ∧ c ≠ ' ' ∧ c ≠ '\r' ∧ c ≠ '\t' ∧ c ≠ '\n' ∧ (c = '/' → ∀ d u, r = d :: u → d ≠ '/' ∧ d ≠ '*')

theorem skip_starts {s : List Char} (h : Starts s) (n : Bool) : skip .plain n s = .ok (n, s) := by
  obtain ⟨c, r, rfl, h1, h2, h3, h4, h5⟩ := h
  rw [skip.eq_def]
  dsimp only
  rw [if_neg (by simp [h1, h2, h3]), if_neg h4]
  split
  · rename_i hc
    replace h5 := h5 hc
    subst hc
    split
    · exact absurd rfl (h5 _ _ rfl).1
    · exact absurd rfl (h5 _ _ rfl).2
    · rfl
  · rfl

theorem word_starts {c : Char} (h : WordChar c) : c ≠ ' ' ∧ c ≠ '\r' ∧ c ≠ '\t' ∧ c ≠ '\n' ∧ c ≠ '/' := by
  have h := isWord_iff.mpr h
  refine ⟨?_, ?_, ?_, ?_, ?_⟩ <;> rintro rfl <;> revert h <;> decide

theorem lexeme_starts {l : Lexeme} {r : List Char} (hok : l.Ok) (hr : l.EndsBefore r) : Starts (l.text ++ r) := by
  have dw : ∀ c, DigitChar c → WordChar c := fun c h => .inr h
  cases l with
  | word w =>
    obtain ⟨⟨c, s, rfl, hc, _⟩, _⟩ := hok
    obtain ⟨a1, a2, a3, a4, a5⟩ := word_starts hc
    exact ⟨c, s ++ r, rfl, a1, a2, a3, a4, fun e => absurd e a5⟩
  | macroName w => exact ⟨'@', w ++ r, rfl, by decide, by decide, by decide, by decide, fun e => absurd e (by decide)⟩
  | label w => exact ⟨'#', w ++ r, rfl, by decide, by decide, by decide, by decide, fun e => absurd e (by decide)⟩
  | whole ds =>
    obtain ⟨h0, hd⟩ := hok
    cases ds with
    | nil => exact absurd rfl h0
    | cons c s =>
      obtain ⟨a1, a2, a3, a4, a5⟩ := word_starts (dw c (hd c (by simp)))
      exact ⟨c, s ++ r, rfl, a1, a2, a3, a4, fun e => absurd e a5⟩
  | real ds f e =>
    obtain ⟨h0, hd, _⟩ := hok
    cases ds with
    | nil => exact absurd rfl h0
    | cons c s =>
      obtain ⟨a1, a2, a3, a4, a5⟩ := word_starts (dw c (hd c (by simp)))
      exact ⟨c, s ++ fracText f ++ expText e ++ r, by simp [Lexeme.text], a1, a2, a3, a4, fun e => absurd e a5⟩
  | based b ds =>
    exact ⟨'0', b.letter :: (ds ++ r), rfl, by decide, by decide, by decide, by decide, fun e => absurd e (by decide)⟩
  | str q es =>
    obtain ⟨hq, _⟩ := hok
    refine ⟨q, es.flatMap Elem.text ++ [q] ++ r, rfl, ?_⟩
    rcases hq with rfl | rfl | rfl <;> exact ⟨by decide, by decide, by decide, by decide, fun e => absurd e (by decide)⟩
  | sym s =>
    have hs := hr.2
    cases s
    case slash => exact ⟨'/', r, rfl, by decide, by decide, by decide, by decide, fun _ => hs rfl⟩
    case slashEqual =>
      refine ⟨'/', '=' :: r, rfl, by decide, by decide, by decide, by decide, fun _ d u e => ?_⟩
      simp only [List.cons.injEq] at e
      rw [← e.1]; decide
    all_goals exact ⟨_, _, rfl, by decide, by decide, by decide, by decide, fun e => absurd e (by decide)⟩

/-! ### The loop -/

theorem endsStmt_iff (t : Ty) : endsStmt t = true ↔ CanEnd t := by
  cases t with
  | kw k => cases k <;> simp [endsStmt, CanEnd]
  | sym s => cases s <;> simp [endsStmt, CanEnd]
  | _ => simp [endsStmt, CanEnd]

theorem loop_tail {s : Source} (ht : ∀ x ∈ s.tail, x.Ok) (hc : ∀ t, s.comment = some t → '\n' ∉ t) (n : Nat)
    (hn : (tailText s).length ≤ n) (ts : List Tok) : loop n ts (tailText s) = .ok (⟨.eof, "EOF".toList⟩ :: ts) := by
  have hskip : ∃ b, skip .plain false (tailText s) = .ok (b, []) := by
    unfold tailText
    rw [skip_gaps ht]
    cases h : s.comment with
    | none => exact ⟨_, rfl⟩
    | some t =>
      simp only
      rw [skip.eq_def]
      dsimp only
      rw [if_neg (by decide), if_neg (by decide), if_pos rfl]
      exact ⟨_, skip_line_end _ t (hc t h)⟩
  obtain ⟨b, hb⟩ := hskip
  cases hs : tailText s with
  | nil => cases n <;> rfl
  | cons c r =>
    rw [hs] at hn hb
    cases n with
    | zero => simp at hn
    | succ n =>
      rw [loop, hb]
      simp [Out.bind]

theorem loop_parts {s : Source} (ht : ∀ x ∈ s.tail, x.Ok) (hc : ∀ t, s.comment = some t → '\n' ∉ t) :
    ∀ (ps : List (List Gap × Lexeme)) (n : Nat) (ts : List Tok), partsOk ps (tailText s) → (∀ p ∈ ps, p.2.Plain) →
    (partsText ps ++ tailText s).length ≤ n →
    ∃ out, Tokens (ts.head?.map (·.ty)) ps out ∧
      loop n ts (partsText ps ++ tailText s) = .ok (⟨.eof, "EOF".toList⟩ :: (out.reverse ++ ts)) := by
  intro ps
  induction ps with
  | nil =>
    intro n ts _ _ hn
    exact ⟨[], .nil, loop_tail ht hc n hn ts⟩
  | cons p ps ih =>
    intro n ts hok hpl hn
    obtain ⟨g, l⟩ := p
    obtain ⟨h1, h2, h3, h4⟩ := hok
    have hst := lexeme_starts h2 h3
    have he : partsText ((g, l) :: ps) ++ tailText s = gapText g ++ (l.text ++ (partsText ps ++ tailText s)) := by
      simp [partsText]
    rw [he] at hn ⊢
    obtain ⟨t, ht1, ht2⟩ := item_spec (prev := ts.head?.map (·.ty)) h2 (hpl (g, l) (by simp)) h3
    have hsk : skip .plain false (gapText g ++ (l.text ++ (partsText ps ++ tailText s))) =
        .ok (g.any Gap.breaks, l.text ++ (partsText ps ++ tailText s)) := by
      rw [skip_gaps h1, skip_starts hst, Bool.false_or]
    have hlen : (partsText ps ++ tailText s).length < (l.text ++ (partsText ps ++ tailText s)).length := by
      have : l.text ≠ [] := by
        intro e0
        cases l with
        | word w => obtain ⟨⟨c, r, e, _⟩, _⟩ := h2; simp only [Lexeme.text] at e0; rw [e0] at e; cases e
        | whole ds => exact h2.1 e0
        | real ds f e => simp only [Lexeme.text, List.append_eq_nil_iff] at e0; exact h2.1 e0.1.1
        | sym s => cases s <;> simp [Lexeme.text, Sym.text] at e0
        | macroName w => simp [Lexeme.text] at e0
        | label w => simp [Lexeme.text] at e0
        | based b ds => simp [Lexeme.text] at e0
        | str q es => simp [Lexeme.text] at e0
      have := List.length_pos_iff.mpr this
      rw [List.length_append (as := l.text)]
      omega
    rw [List.length_append] at hn
    obtain ⟨c, r, hs, _⟩ := hst
    have hne : gapText g ++ (l.text ++ (partsText ps ++ tailText s)) ≠ [] := by rw [hs]; simp
    cases hx : gapText g ++ (l.text ++ (partsText ps ++ tailText s)) with
    | nil => exact absurd hx hne
    | cons c' r' =>
      cases n with
      | zero => omega
      | succ n =>
        rw [hx] at hsk
        rw [loop, hsk]
        simp only [Out.bind]
        rw [if_neg (by rw [hs]; simp), ht2]
        simp only
        generalize hts' : (if g.any Gap.breaks && ts.head?.any (fun p => needEnd p.ty t.ty) then
          (⟨.sym .semicolon, [';']⟩ :: ts : List Tok) else ts) = ts'
        obtain ⟨out, o1, o2⟩ := ih n (t :: ts') h4 (fun p hp => hpl p (by simp [hp])) (by omega)
        rw [o2]
        simp only [List.head?_cons, Option.map_some] at o1
        split at hts'
        · rename_i hcond
          simp only [Bool.and_eq_true] at hcond
          obtain ⟨hb, hp⟩ := hcond
          cases hh : ts.head? with
          | none => rw [hh] at hp; simp at hp
          | some y =>
            rw [hh] at hp ht1
            simp only [Option.any_some, needEnd, Bool.and_eq_true, bne_iff_ne, ne_eq] at hp
            refine ⟨⟨.sym .semicolon, [';']⟩ :: t :: out, .ended ht1 ?_ ((endsStmt_iff _).mp hp.2) hp.1 o1, ?_⟩
            · obtain ⟨x, hx, e⟩ := List.any_eq_true.mp hb
              exact ⟨x, hx, e⟩
            · rw [← hts']; simp
        · rename_i hcond
          refine ⟨t :: out, .plain ht1 ?_ o1, ?_⟩
          · rintro ⟨⟨x, hx, e⟩, ⟨y, hy, hce⟩, hd⟩
            refine hcond ?_
            rw [Bool.and_eq_true]
            refine ⟨List.any_eq_true.mpr ⟨x, hx, e⟩, ?_⟩
            cases hh : ts.head? with
            | none => rw [hh] at hy; cases hy
            | some z =>
              rw [hh] at hy
              simp only [Option.map_some, Option.some.injEq] at hy
              simp only [Option.any_some, needEnd, Bool.and_eq_true, bne_iff_ne, ne_eq]
              exact ⟨hd, (endsStmt_iff _).mpr (hy ▸ hce)⟩
          · rw [← hts']; simp

/-! ### The end -/

theorem skip_suffix : ∀ (s : List Char) (m : Mode) (n b : Bool) (r : List Char), skip m n s = .ok (b, r) → r <:+ s := by
  intro s
  induction hlen : s.length using Nat.strongRecOn generalizing s with
  | ind k ih =>
    intro m n b r h
    replace ih : ∀ (s' : List Char) m n b r, s'.length < k → skip m n s' = .ok (b, r) → r <:+ s' :=
      fun s' m n b r hl hs => ih s'.length hl s' rfl m n b r hs
    subst hlen
    cases s with
    | nil =>
      cases m with
      | plain => rw [skip.eq_def] at h; simp only [Out.ok.injEq, Prod.mk.injEq] at h; rw [← h.2]; exact List.suffix_refl _
      | line => rw [skip.eq_def] at h; simp only [Out.ok.injEq, Prod.mk.injEq] at h; rw [← h.2]; exact List.suffix_refl _
      | block => rw [skip.eq_def] at h; cases h
    | cons c s =>
      have up : ∀ {x : List Char}, r <:+ x → x <:+ c :: s → r <:+ c :: s := fun a b => a.trans b
      cases m with
      | plain =>
        rw [skip.eq_def] at h
        dsimp only at h
        split at h
        · exact up (ih s _ _ _ _ (by simp) h) (List.suffix_cons _ _)
        · split at h
          · exact up (ih s _ _ _ _ (by simp) h) (List.suffix_cons _ _)
          · split at h
            · split at h
              · rename_i s
                exact up (ih s _ _ _ _ (by simp; omega) h) ⟨[_, _], rfl⟩
              · rename_i s
                exact up (ih ('*' :: s) _ _ _ _ (by simp) h) (List.suffix_cons _ _)
              · simp only [Out.ok.injEq, Prod.mk.injEq] at h
                rename_i hc _ _ _
                rw [← h.2, hc]; exact List.suffix_refl _
            · simp only [Out.ok.injEq, Prod.mk.injEq] at h
              rw [← h.2]; exact List.suffix_refl _
      | line =>
        rw [skip.eq_def] at h
        dsimp only at h
        split at h <;> exact up (ih s _ _ _ _ (by simp) h) (List.suffix_cons _ _)
      | block =>
        rw [skip.eq_def] at h
        dsimp only at h
        split at h
        · split at h
          · rename_i s
            exact up (ih s _ _ _ _ (by simp; omega) h) ⟨[_, _], rfl⟩
          · exact up (ih s _ _ _ _ (by simp) h) (List.suffix_cons _ _)
        · exact up (ih s _ _ _ _ (by simp) h) (List.suffix_cons _ _)

theorem skip_past : ∀ (s : List Char) (m : Mode) (n : Bool), skip m n s ≠ .past ∧ skip m n s ≠ .endless := by
  intro s
  induction hlen : s.length using Nat.strongRecOn generalizing s with
  | ind k ih =>
    intro m n
    replace ih : ∀ (s' : List Char) m n, s'.length < k → skip m n s' ≠ .past ∧ skip m n s' ≠ .endless :=
      fun s' m n hl => ih s'.length hl s' rfl m n
    subst hlen
    cases s with
    | nil => cases m <;> rw [skip.eq_def] <;> simp
    | cons c s =>
      cases m with
      | plain =>
        rw [skip.eq_def]
        dsimp only
        split
        · exact ih s _ _ (by simp)
        · split
          · exact ih s _ _ (by simp)
          · split
            · split
              · rename_i s; exact ih s _ _ (by simp; omega)
              · rename_i s; exact ih ('*' :: s) _ _ (by simp)
              · simp
            · simp
      | line =>
        rw [skip.eq_def]
        dsimp only
        split <;> exact ih s _ _ (by simp)
      | block =>
        rw [skip.eq_def]
        dsimp only
        split
        · split
          · rename_i s; exact ih s _ _ (by simp; omega)
          · exact ih s _ _ (by simp)
        · exact ih s _ _ (by simp)

/-- The string ends, there is an error, or the source ends; the last without a line break, unless the string may have some. -/
theorem stringLoop_spec (q : Char) : ∀ (s buf : List Char), stringLoop q s buf ≠ .endless ∧
    (∀ w r, stringLoop q s buf = .ok (w, r) → r <:+ s) ∧ (stringLoop q s buf = .past → q = '`' ∨ '\n' ∉ s) := by
  intro s
  induction hlen : s.length using Nat.strongRecOn generalizing s with
  | ind k ih =>
    intro buf
    replace ih : ∀ (s' buf : List Char), s'.length < k → stringLoop q s' buf ≠ .endless ∧
        (∀ w r, stringLoop q s' buf = .ok (w, r) → r <:+ s') ∧ (stringLoop q s' buf = .past → q = '`' ∨ '\n' ∉ s') :=
      fun s' buf hl => ih s'.length hl s' rfl buf
    subst hlen
    cases s with
    | nil => rw [stringLoop.eq_def]; simp
    | cons c s =>
      rw [stringLoop.eq_def]
      dsimp only
      split
      · refine ⟨by simp, ?_, by simp⟩
        intro w r h
        simp only [Out.ok.injEq, Prod.mk.injEq] at h
        rw [← h.2]; exact List.suffix_cons _ _
      · split
        · simp
        · rename_i hnl
          have cons_nl : ∀ {s : List Char}, (q = '`' ∨ '\n' ∉ s) → q = '`' ∨ '\n' ∉ c :: s := by
            rintro s (h | h)
            · exact .inl h
            · by_cases hq : q = '`'
              · exact .inl hq
              · refine .inr (fun e => ?_)
                rcases List.mem_cons.mp e with e | e
                · exact hnl ⟨hq, e.symm⟩
                · exact h e
          split
          · split
            · rename_i a b s
              split
              · rename_i hex
                obtain ⟨h1, h2, h3⟩ := ih s _ (by simp; omega)
                refine ⟨h1, fun w r h => (h2 w r h).trans ⟨[_, _, _, _], rfl⟩, fun h => cons_nl ?_⟩
                rcases h3 h with h | h
                · exact .inl h
                · refine .inr (fun e => ?_)
                  rw [Bool.and_eq_true] at hex
                  simp only [List.mem_cons] at e
                  rcases e with e | e | e | e
                  · cases e
                  · rw [← e] at hex; exact absurd hex.1 (by decide)
                  · rw [← e] at hex; exact absurd hex.2 (by decide)
                  · exact h e
              · simp
            · rename_i x s _
              split
              · rename_i v hv
                obtain ⟨h1, h2, h3⟩ := ih s _ (by simp; omega)
                refine ⟨h1, fun w r h => (h2 w r h).trans ⟨[_, _], rfl⟩, fun h => cons_nl ?_⟩
                rcases h3 h with h | h
                · exact .inl h
                · refine .inr (fun e => ?_)
                  rcases List.mem_cons.mp e with e | e
                  · rw [← e, show escape '\n' = none from rfl] at hv; cases hv
                  · exact h e
              · simp
            · simp
          · obtain ⟨h1, h2, h3⟩ := ih s _ (by simp)
            exact ⟨h1, fun w r h => (h2 w r h).trans (List.suffix_cons _ _), fun h => cons_nl (h3 h)⟩

theorem special_suffix {s r : List Char} {x : Sym} (h : special s = some (x, r)) : ∃ c u, s = c :: u ∧ r <:+ u := by
  unfold special at h
  split at h
  case h_25 => cases h
  all_goals
    refine ⟨_, _, rfl, ?_⟩
    first
    | (simp only [Option.some.injEq, Prod.mk.injEq] at h; rw [← h.2]; exact List.suffix_refl _)
    | (split at h <;> simp only [Option.some.injEq, Prod.mk.injEq] at h <;> rw [← h.2] <;>
        first | exact List.suffix_refl _ | exact List.suffix_cons _ _ | exact ⟨[_, _], rfl⟩)

theorem fraction_suffix (r : List Char) : (fraction r).2 <:+ r := by
  unfold fraction
  split
  · split
    · exact (List.dropWhile_suffix _).trans (List.suffix_cons _ _)
    · exact List.suffix_refl _
  · exact List.suffix_refl _

theorem exponent_suffix (r : List Char) : (exponent r).2 <:+ r := by
  unfold exponent
  split
  · split
    · exact (List.dropWhile_suffix _).trans (List.suffix_cons _ _)
    · split
      · exact (List.dropWhile_suffix _).trans ⟨[_, _], rfl⟩
      · exact List.suffix_refl _
  · exact List.suffix_refl _

theorem based_spec' (p : Char → Bool) (b : Nat) (s : List Char) : based p b s ≠ .past ∧ based p b s ≠ .endless ∧
    ∀ w r, based p b s = .ok (w, r) → r <:+ s := by
  unfold based convert
  dsimp only
  split
  · refine ⟨by simp [Out.bind], by simp [Out.bind], ?_⟩
    intro w r h
    simp only [Out.bind, Out.ok.injEq, Prod.mk.injEq] at h
    rw [← h.2]; exact List.dropWhile_suffix _
  · simp [Out.bind]

theorem number_spec {c : Char} {s : List Char} (hc : isDigit c = true) : number (c :: s) ≠ .past ∧ number (c :: s) ≠ .endless ∧
    ∀ w r, number (c :: s) = .ok (w, r) → r <:+ s := by
  unfold number
  split
  · rename_i e
    simp only [List.cons.injEq] at e
    obtain ⟨h1, h2, h3⟩ := based_spec' isHex 16 _
    exact ⟨h1, h2, fun w r h => (h3 w r h).trans (by rw [e.2]; exact List.suffix_cons _ _)⟩
  · rename_i e
    simp only [List.cons.injEq] at e
    obtain ⟨h1, h2, h3⟩ := based_spec' isOct 8 _
    exact ⟨h1, h2, fun w r h => (h3 w r h).trans (by rw [e.2]; exact List.suffix_cons _ _)⟩
  · rename_i e
    simp only [List.cons.injEq] at e
    obtain ⟨h1, h2, h3⟩ := based_spec' isBin 2 _
    exact ⟨h1, h2, fun w r h => (h3 w r h).trans (by rw [e.2]; exact List.suffix_cons _ _)⟩
  · refine ⟨by simp, by simp, ?_⟩
    intro w r h
    simp only [decimal, Out.ok.injEq, Prod.mk.injEq] at h
    rw [← h.2]
    refine ((exponent_suffix _).trans (fraction_suffix _)).trans ?_
    rw [List.dropWhile_cons_of_pos hc]
    exact List.dropWhile_suffix _

theorem item_spec' (prev : Option Ty) (c : Char) (s : List Char) : item prev (c :: s) ≠ .endless ∧
    (∀ t r, item prev (c :: s) = .ok (t, r) → r <:+ s) ∧ (item prev (c :: s) = .past → c = '`' ∨ (isQuote c = true ∧ '\n' ∉ s)) := by
  rw [item]
  split
  · rename_i hc
    refine ⟨by simp, ?_, by simp⟩
    intro t r h
    simp only [Out.ok.injEq, Prod.mk.injEq] at h
    rw [← h.2, List.dropWhile_cons_of_pos (by simp [isWord, hc])]
    exact List.dropWhile_suffix _
  · split
    · refine ⟨by simp, ?_, by simp⟩
      intro t r h
      simp only [Out.ok.injEq, Prod.mk.injEq] at h
      rw [← h.2]; exact List.dropWhile_suffix _
    · split
      · refine ⟨by simp, ?_, by simp⟩
        intro t r h
        simp only [Out.ok.injEq, Prod.mk.injEq] at h
        rw [← h.2]; exact List.dropWhile_suffix _
      · split
        · rename_i hc
          obtain ⟨h1, h2, h3⟩ := number_spec (s := s) hc
          cases hn : number (c :: s) with
          | ok q =>
            obtain ⟨w, r⟩ := q
            refine ⟨by simp [Out.bind], ?_, by simp [Out.bind]⟩
            intro t r' h
            simp only [Out.bind, Out.ok.injEq, Prod.mk.injEq] at h
            rw [← h.2]; exact h3 w r hn
          | err => simp [Out.bind]
          | past => exact absurd hn h1
          | endless => exact absurd hn h2
        · split
          · rename_i hc
            obtain ⟨h1, h2, h3⟩ := stringLoop_spec c s []
            cases hn : stringLoop c s [] with
            | ok q =>
              obtain ⟨w, r⟩ := q
              refine ⟨by simp [Out.bind], ?_, by simp [Out.bind]⟩
              intro t r' h
              simp only [Out.bind, Out.ok.injEq, Prod.mk.injEq] at h
              rw [← h.2]; exact h2 w r hn
            | err => simp [Out.bind]
            | past =>
              refine ⟨by simp [Out.bind], by simp [Out.bind], fun _ => ?_⟩
              rcases h3 hn with h | h
              · exact .inl h
              · exact .inr ⟨hc, h⟩
            | endless => exact absurd hn h1
          · cases hs : special (c :: s) with
            | none => simp
            | some q =>
              obtain ⟨x, r⟩ := q
              obtain ⟨c', u, e, hr⟩ := special_suffix hs
              simp only [List.cons.injEq] at e
              rw [← e.2] at hr
              simp only
              split
              · refine ⟨by simp, ?_, by simp⟩
                intro t r' h
                simp only [Out.ok.injEq, Prod.mk.injEq] at h
                rw [← h.2]; exact hr
              · refine ⟨by simp, ?_, by simp⟩
                intro t r' h
                simp only [Out.ok.injEq, Prod.mk.injEq] at h
                rw [← h.2]; exact hr

theorem loop_ends : ∀ (n : Nat) (ts : List Tok) (s : List Char), s.length ≤ n → loop n ts s ≠ .endless ∧
    (loop n ts s = .past → (s.getLast? ≠ some '\n' ∨ '`' ∈ s)) := by
  intro n
  induction n with
  | zero =>
    intro ts s h
    cases s with
    | nil => simp [loop]
    | cons c r => simp at h
  | succ n ih =>
    intro ts s hs
    cases s with
    | nil => simp [loop]
    | cons c r =>
      rw [loop]
      obtain ⟨k1, k2⟩ := skip_past (c :: r) .plain false
      cases hk : skip .plain false (c :: r) with
      | err => simp [Out.bind]
      | past => exact absurd hk k1
      | endless => exact absurd hk k2
      | ok q =>
        obtain ⟨b, u⟩ := q
        have hsuf := skip_suffix _ _ _ _ _ hk
        simp only [Out.bind]
        cases u with
        | nil => simp
        | cons d u =>
          rw [if_neg (by simp)]
          obtain ⟨i1, i2, i3⟩ := item_spec' (ts.head?.map (·.ty)) d u
          cases hi : item (ts.head?.map (·.ty)) (d :: u) with
          | err => simp
          | endless => exact absurd hi i1
          | past =>
            simp only [ne_eq, reduceCtorEq, not_false_eq_true, true_and, forall_const]
            by_cases hl : (c :: r).getLast? = some '\n'
            · refine .inr ?_
              rcases i3 hi with h | ⟨hq, hn⟩
              · exact h ▸ hsuf.subset (by simp)
              · exfalso
                obtain ⟨v, hv⟩ := hsuf
                rw [← hv, List.getLast?_append] at hl
                cases u with
                | nil =>
                  simp only [List.getLast?_singleton, Option.some_or, Option.some.injEq] at hl
                  rw [hl] at hq
                  exact absurd hq (by decide)
                | cons e u =>
                  rw [List.getLast?_cons_cons] at hl
                  cases hg : (e :: u).getLast? with
                  | none => simp at hg
                  | some y =>
                    rw [hg] at hl
                    simp only [Option.some_or, Option.some.injEq] at hl
                    exact hn (hl ▸ List.mem_of_getLast? hg)
            · exact .inl hl
          | ok t =>
            obtain ⟨t, v⟩ := t
            have hv := i2 t v hi
            simp only
            have hlen : v.length ≤ n := by
              have := hv.length_le
              have := hsuf.length_le
              simp only [List.length_cons] at *
              omega
            obtain ⟨a1, a2⟩ := ih (t :: (if b && ts.head?.any fun p => needEnd p.ty t.ty then ⟨.sym .semicolon, [';']⟩ :: ts else ts)) v hlen
            refine ⟨a1, fun h => ?_⟩
            have hvs : v <:+ c :: r := (hv.trans (List.suffix_cons _ _)).trans hsuf
            rcases a2 h with hn | hn
            · cases v with
              | nil => 
                cases n <;> simp [loop] at h
              | cons y v =>
                refine .inl (fun e => hn ?_)
                obtain ⟨z, hz⟩ := hvs
                rw [← hz, List.getLast?_append] at e
                cases hg : (y :: v).getLast? with
                | none => simp at hg
                | some y' =>
                  rw [hg] at e
                  simpa using e
            · exact .inr (hvs.subset hn)

end Nature.Scan
