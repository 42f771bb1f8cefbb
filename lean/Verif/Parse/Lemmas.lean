/-
Lemmas on single tokens.
-/
import Verif.Parse.Spec
namespace Nature.Parse
open Nature.Scan (Tok Ty Sym Kw)

@[simp] theorem isSym_tok (s : Sym) (t : Tok) : isSym s (.tok t) = (t.ty == .sym s) := rfl
@[simp] theorem isKw_tok (k : Kw) (t : Tok) : isKw k (.tok t) = (t.ty == .kw k) := rfl
@[simp] theorem isIdent_tok (t : Tok) : isIdent (.tok t) = (t.ty == .ident) := rfl
@[simp] theorem sy_ty (s : Sym) : (sy s).ty = .sym s := rfl
@[simp] theorem raw_nil : raw [] = [] := rfl
@[simp] theorem raw_cons (t : Tok) (ts : List Tok) : raw (t :: ts) = .tok t :: raw ts := rfl
@[simp] theorem raw_append (ts us : List Tok) : raw (ts ++ us) = raw ts ++ raw us := List.map_append
@[simp] theorem raw_length (ts : List Tok) : (raw ts).length = ts.length := List.length_map _

@[simp] theorem bind_ok {α β : Type} (a : α) (f : α → Out β) : (Out.ok a).bind f = f a := rfl

/-! ### The first token changes -/

/-- What the first tokens become if a `<` does not start type arguments. -/
def norm : List PTok → List PTok
  | t :: r =>
    if isSym .leftAngle t then .less :: r
    else if isSym .rightAngle t then
      match r with
      | u :: s => if isSym .rightAngle u then .shr :: s else t :: u :: s
      | [] => [t]
    else t :: r
  | [] => []

theorem infixTok_norm {typ : List PTok → Option (List PTok)} {e : Expr} {ts : List PTok}
    (h : ∀ t r, ts = t :: r → isSym .leftAngle t = true → typeArgs typ e r = false) : infixTok typ e ts = norm ts := by
  cases ts with
  | nil => rfl
  | cons t r =>
    unfold infixTok norm
    dsimp only
    split
    · rename_i ht
      rw [h t r rfl ht]; rfl
    · rfl

theorem infixTok_done {typ : List PTok → Option (List PTok)} {e : Expr} (ts : List PTok) : infixTok typ e (norm ts) = norm ts := by
  cases ts with
  | nil => rfl
  | cons t r =>
    unfold norm
    dsimp only
    split
    · rfl
    · rename_i h1
      split
      · rename_i h2
        cases r with
        | nil => simp [infixTok, h1, h2]
        | cons u s =>
          dsimp only
          split
          · rfl
          · rename_i h3
            simp [infixTok, h1, h2, h3]
      · rename_i h2
        simp [infixTok, h1, h2]

theorem typeList_types {typ : List PTok → Option (List PTok)} : ∀ (n : Nat) (s r : List PTok), typeList typ n s = some r → Types typ s r := by
  intro n
  induction n with
  | zero => intro s r h; cases h
  | succ n ih =>
    intro s r h
    rw [typeList] at h
    cases ht : typ s with
    | none => rw [ht] at h; cases h
    | some q =>
      rw [ht] at h
      cases q with
      | nil => simp only [Option.some.injEq] at h; subst h; exact .one ht
      | cons t q =>
        simp only at h
        split at h
        · rename_i hc
          cases t with
          | tok t =>
            simp only [isSym_tok, beq_iff_eq] at hc
            obtain ⟨ty, w⟩ := t
            simp only at hc
            subst hc
            exact .more ht (ih _ _ h)
          | less => cases hc
          | shr => cases hc
        · simp only [Option.some.injEq] at h; subst h; exact .one ht

theorem isSym_elim {s : Sym} {t : PTok} (h : isSym s t = true) : ∃ w, t = .tok ⟨.sym s, w⟩ := by
  cases t with
  | tok t =>
    obtain ⟨ty, w⟩ := t
    simp only [isSym_tok, beq_iff_eq] at h
    exact ⟨w, by rw [h]⟩
  | less => cases h
  | shr => cases h

theorem generic_named {e : Expr} (h : generic e = true) : Named e := by
  unfold generic at h
  split at h
  · exact .inl ⟨_, rfl⟩
  · exact .inr ⟨_, _, rfl⟩
  · cases h

theorem typeArgs_spec {typ : List PTok → Option (List PTok)} {e : Expr} {s : List PTok} (h : Named e → ¬ TypeArgs typ s) : typeArgs typ e s = false := by
  cases hf : typeArgs typ e s with
  | false => rfl
  | true =>
    exfalso
    unfold typeArgs at hf
    rw [Bool.and_eq_true] at hf
    refine h (generic_named hf.1) ?_
    replace hf := hf.2
    split at hf
    · rename_i t r ht
      split at hf
      · rename_i hg
        obtain ⟨w, rfl⟩ := isSym_elim hg
        exact .inl ⟨w, r, ht⟩
      · split at hf
        · rename_i hc
          obtain ⟨w, rfl⟩ := isSym_elim hc
          split at hf
          · rename_i q hq
            refine .inr ?_
            unfold closes at hf
            split at hf
            · rename_i g u v
              rw [Bool.and_eq_true, Bool.or_eq_true, Bool.or_eq_true] at hf
              obtain ⟨w', rfl⟩ := isSym_elim hf.1
              rcases hf.2 with (hx | hx) | hx <;> obtain ⟨w'', rfl⟩ := isSym_elim hx <;>
                exact ⟨w', _, v, .more ht (typeList_types _ _ _ hq), by simp⟩
            · cases hf
          · cases hf
        · cases hf
    · cases hf

/-- Nothing that could be taken for type arguments comes next. -/
def Ready (typ : List PTok → Option (List PTok)) (e : Expr) (r : List Tok) : Prop :=
  Named e → ∀ t s, r = t :: s → t.ty = .sym .leftAngle → ¬ TypeArgs typ (raw s)

theorem infixTok_raw {typ : List PTok → Option (List PTok)} {e : Expr} {r : List Tok} (h : Ready typ e r) :
    infixTok typ e (raw r) = norm (raw r) := by
  apply infixTok_norm
  intro t q hq ht
  cases r with
  | nil => cases hq
  | cons u s =>
    simp only [raw_cons, List.cons.injEq] at hq
    obtain ⟨rfl, rfl⟩ := hq
    simp only [isSym_tok, beq_iff_eq] at ht
    exact typeArgs_spec (fun hn => h hn u s rfl ht)

theorem loop_norm {typ : List PTok → Option (List PTok)} {e : Expr} {r : List Tok} {X : List PTok} (h : Ready typ e r)
    (hx : X = raw r ∨ X = norm (raw r)) (m p : Nat) : loop typ m p e X = loop typ m p e (norm (raw r)) := by
  rcases hx with rfl | rfl
  · cases m with
    | zero => simp [loop]
    | succ m => rw [loop, loop, infixTok_raw h, infixTok_done]
  · rfl

/-- A token other than the two angles does not change. -/
theorem norm_other {t : Tok} {r : List PTok} (h1 : t.ty ≠ .sym .leftAngle) (h2 : t.ty ≠ .sym .rightAngle) :
    norm (.tok t :: r) = .tok t :: r := by
  simp [norm, h1, h2]

theorem ready_other {typ : List PTok → Option (List PTok)} {e : Expr} {t : Tok} {r : List Tok} (h1 : t.ty ≠ .sym .leftAngle) :
    Ready typ e (t :: r) := by
  intro _ u s e hu
  simp only [List.cons.injEq] at e
  rw [← e.1] at hu
  exact absurd hu h1

/-- The token of a binary operator, once it is normal. -/
def Bin.tok : Bin → PTok
  | .lt => .less
  | .rshift => .shr
  | .add => .tok (sy .plus) | .sub => .tok (sy .minus) | .mul => .tok (sy .star) | .div => .tok (sy .slash) | .rem => .tok (sy .percent)
  | .lshift => .tok (sy .leftShift) | .and => .tok (sy .and) | .or => .tok (sy .or)
  | .xor => .tok (sy .xor) | .le => .tok (sy .lessEqual) | .gt => .tok (sy .rightAngle) | .ge => .tok (sy .greaterEqual)
  | .ee => .tok (sy .equalEqual) | .ne => .tok (sy .notEqual) | .andAnd => .tok (sy .andAnd) | .orOr => .tok (sy .orOr)

theorem bin_tok (o : Bin) : tokOp o.tok = some o ∧ infixPrec o.tok = o.level := by cases o <;> exact ⟨rfl, rfl⟩

theorem norm_spell (o : Bin) (r : List Tok) (h : ∀ t s, r = t :: s → t.ty ≠ .sym .rightAngle) :
    norm (raw (o.spell ++ r)) = o.tok :: raw r := by
  cases o <;> simp [Bin.spell, Bin.tok, norm]
  cases r with
  | nil => rfl
  | cons t s =>
    have := h t s rfl
    simp [this]

theorem spell_pos (o : Bin) : 1 ≤ o.spell.length := by cases o <;> simp [Bin.spell]

theorem ready_spell {typ : List PTok → Option (List PTok)} {o : Bin} {e : Expr} {r : List Tok} (h : o = .lt → Named e → ¬ TypeArgs typ (raw r)) :
    Ready typ e (o.spell ++ r) := by
  by_cases ho : o = .lt
  · subst ho
    intro hn t s e _
    simp only [Bin.spell, List.cons_append, List.nil_append, List.cons.injEq] at e
    rw [← e.2]
    exact h rfl hn
  · cases o <;> first | exact absurd rfl ho | exact ready_other (by simp)

/-! ### Where an expression ends -/

theorem follow_norm {typ : List PTok → Option (List PTok)} {p : Nat} {e : Expr} {r : List Tok} (h : Stops typ p e r) :
    ∃ t s, norm (raw r) = t :: s ∧ infixPrec t < p := by
  obtain ⟨h1, h2, h3, h4⟩ := h
  cases r with
  | nil => exact absurd rfl h1
  | cons t s =>
    obtain ⟨h5, h6⟩ := h4 t s rfl
    by_cases hl : t.ty = .sym .leftAngle
    · refine ⟨.less, raw s, by simp [norm, hl], ?_⟩
      simpa [follow, hl, infixPrec] using h2
    · by_cases hg : t.ty = .sym .rightAngle
      · cases s with
        | nil =>
          refine ⟨.tok t, [], by simp [norm, hg], ?_⟩
          simpa [follow, hg, infixPrec, symPrec] using h2
        | cons u s =>
          by_cases hu : u.ty = .sym .rightAngle
          · refine ⟨.shr, raw s, by simp [norm, hg, hu], ?_⟩
            simpa [follow, hg, hu, infixPrec] using h2
          · refine ⟨.tok t, .tok u :: raw s, by simp [norm, hg, hu], ?_⟩
            simpa [follow, hg, hu, infixPrec, symPrec] using h2
      · refine ⟨.tok t, raw s, by rw [raw_cons, norm_other hl hg], ?_⟩
        obtain ⟨ty, w⟩ := t
        simp only at hl hg h5 h6
        have : infixPrec (.tok ⟨ty, w⟩) = follow (⟨ty, w⟩ :: s) := by
          cases ty with
          | sym x => cases x <;> first | rfl | exact absurd rfl hl | exact absurd rfl hg | exact absurd rfl h5 | exact absurd rfl h6
          | kw x => cases x <;> rfl
          | _ => rfl
        rw [this]; exact h2

theorem stops_ready {typ : List PTok → Option (List PTok)} {p : Nat} {e : Expr} {r : List Tok} (h : Stops typ p e r) : Ready typ e r := h.angle

/-! ### parser_expr -/

theorem angleCurly_false : ∀ (n : Nat) (s : List Tok), NoAngleCurly s → angleCurly n (raw s) = false := by
  intro n s
  induction s generalizing n with
  | nil => intro _; rfl
  | cons t s ih =>
    intro h
    have ih' := fun n => ih n (fun u a b v e => h (t :: u) a b v (by rw [e]; rfl))
    rw [raw_cons, angleCurly.eq_def]; dsimp only
    split
    · exact ih' _
    · split
      · rename_i hg
        split
        · cases s with
          | nil => rfl
          | cons u s =>
            simp only [isSym_tok, beq_iff_eq] at hg
            have := h [] t u s rfl hg
            simp [this]
        · exact ih' _
      · split
        · rfl
        · exact ih' _

theorem noStruct {b : Tok} {r : List Tok} (h : NoStruct (b :: r)) :
    isSym .leftCurly (.tok b) = false ∧ (isSym .leftAngle (.tok b) && angleCurly 1 (raw r)) = false := by
  obtain ⟨h1, h2⟩ := h b r rfl
  refine ⟨by simp [h1], ?_⟩
  by_cases hl : b.ty = .sym .leftAngle
  · simp [hl, angleCurly_false 1 r (h2 hl)]
  · simp [hl]

theorem free_expr {ts : List Tok} (h : Free ts) (P : Nat → List PTok → Res Expr) : exprWith P (raw ts) = P 1 (raw ts) := by
  obtain ⟨h1, h2, h3, h4⟩ := h
  have e1 : structNew (raw ts) = false := by
    match ts with
    | [] => rfl
    | [a] => rfl
    | [a, b] =>
      by_cases ha : a.ty = .ident
      · obtain ⟨q1, q2⟩ := noStruct (h3 a [b] rfl ha)
        simp only [raw_cons, raw_nil] at q2
        simp only [raw_cons, raw_nil, structNew, q1, q2]; simp
      · simp [structNew, ha]
    | [a, b, c] =>
      by_cases ha : a.ty = .ident
      · obtain ⟨q1, q2⟩ := noStruct (h3 a [b, c] rfl ha)
        simp only [raw_cons, raw_nil] at q2
        simp only [raw_cons, raw_nil, structNew, q1, q2]; simp
      · simp [structNew, ha]
    | a :: b :: c :: d :: r =>
      by_cases ha : a.ty = .ident
      · obtain ⟨q1, q2⟩ := noStruct (h3 a (b :: c :: d :: r) rfl ha)
        simp only [raw_cons] at q2
        simp only [raw_cons, structNew, q1, q2]
        by_cases hb : b.ty = .sym .dot
        · by_cases hc : c.ty = .ident
          · obtain ⟨q3, q4⟩ := noStruct (h4 a b c (d :: r) rfl ha hb hc)
            rw [q3, q4]; simp
          · simp [hc]
        · simp [hb]
      · simp [structNew, ha]
  have e2 : startsOther (raw ts) = false := by
    cases ts with
    | nil => rfl
    | cons t s =>
      obtain ⟨a, b, c⟩ := h1 t s rfl
      simp [startsOther, a, b, c]
  have e3 : isNew (raw ts) = false := by
    match ts with
    | [] => rfl
    | [a] => rfl
    | a :: b :: r =>
      simp only [raw_cons, isNew]
      by_cases hn : a.ty = .ident ∧ a.text = "new".toList
      · obtain ⟨ty, w⟩ := a
        obtain ⟨rfl, rfl⟩ := hn
        exact absurd rfl (h2 (b :: r))
      · by_cases ha : a.ty = .ident
        · have : a.text ≠ "new".toList := fun e => hn ⟨ha, e⟩
          simp only [Bool.and_eq_false_imp, Bool.and_eq_true, beq_iff_eq]
          intro x; exact absurd x.2 this
        · simp [ha]
  unfold exprWith
  rw [e1, e2, e3]
  rfl

end Nature.Parse
