/-
The parser comes to an end with an expression or a reported error.
-/
import Verif.Parse.Lemmas
namespace Nature.Parse
open Nature.Scan (Tok Ty Sym Kw)

theorem Source.ne {typ : List PTok → Option (List PTok)} {ts : List Tok} (h : Source typ ts) : ts ≠ [] := by
  obtain ⟨b, e, h, _⟩ := h.eof
  rw [h]; simp

theorem Source.drop {typ : List PTok → Option (List PTok)} {pre : List Tok} : ∀ {t : Tok} {r : List Tok},
    Source typ (pre ++ t :: r) → t.ty ≠ .eof → Source typ r := by
  intro t r h ht
  obtain ⟨⟨b, e, h1, h2⟩, h3, h4⟩ := h
  refine ⟨?_, ?_, ?_⟩
  · cases hr : r.reverse with
    | nil =>
      rw [List.reverse_eq_nil_iff] at hr
      subst hr
      have := List.append_inj' h1 rfl
      simp only [List.cons.injEq, and_true] at this
      rw [this.2] at ht
      exact absurd h2 ht
    | cons x y =>
      have hr' : r = y.reverse ++ [x] := by rw [← List.reverse_reverse r, hr]; simp
      refine ⟨y.reverse, x, hr', ?_⟩
      rw [hr'] at h1
      have : pre ++ t :: (y.reverse ++ [x]) = (pre ++ t :: y.reverse) ++ [x] := by simp
      rw [this] at h1
      have := List.append_inj' h1 rfl
      simp only [List.cons.injEq, and_true] at this
      rw [this.2]; exact h2
  · intro u a b v e
    exact h3 (pre ++ t :: u) a b v (by rw [e]; simp)
  · intro u a b v e
    exact h4 (pre ++ t :: u) a b v (by rw [e]; simp)

/-- Ends with a value for which that holds, or with an error that is reported. -/
def Safe {α : Type} (x : Out α) (Q : α → Prop) : Prop :=
  match x with
  | .ok a => Q a
  | .err => True
  | .other => True
  | .crash => False
  | .endless => False

theorem Safe.bind {α β : Type} {x : Out α} {f : α → Out β} {Q : α → Prop} {R : β → Prop} (h : Safe x Q) (hf : ∀ a, Q a → Safe (f a) R) :
    Safe (x.bind f) R := by
  cases x with
  | ok a => exact hf a h
  | err => trivial
  | other => trivial
  | crash => exact h
  | endless => exact h

theorem Safe.mono {α : Type} {x : Out α} {Q R : α → Prop} (h : Safe x Q) (hf : ∀ a, Q a → R a) : Safe x R := by
  cases x with
  | ok a => exact hf a h
  | _ => exact h

/-- The tokens as they are, or with the first ones changed. -/
def Same (r : List Tok) (X : List PTok) : Prop := X = raw r ∨ X = norm (raw r)

/-- Some tokens have been read; the last one can end an expression, and a name if it was one. -/
def After (nm : Prop) (ts : List Tok) (X : List PTok) : Prop :=
  ∃ pre t r, ts = pre ++ t :: r ∧ ends t.ty = true ∧ (nm → endsName t.ty = true) ∧ Same r X

theorem After.weak {nm nm' : Prop} {ts : List Tok} {X : List PTok} (hn : nm' → nm) (h : After nm ts X) : After nm' ts X := by
  obtain ⟨p, u, r, h1, h2, h3, h4⟩ := h
  exact ⟨p, u, r, h1, h2, fun q => h3 (hn q), h4⟩

theorem not_named {e : Expr} (h : generic e = false) : ¬ Named e := by
  rintro (⟨w, rfl⟩ | ⟨u, w, rfl⟩) <;> cases h

theorem ends_eof {t : Tok} (h : ends t.ty = true) : t.ty ≠ .eof := by
  intro e; rw [e] at h; cases h

theorem After.more {nm : Prop} {ts us : List Tok} {t : Tok} {pre : List Tok} {X : List PTok} (e : us = pre ++ t :: ts) (h : After nm ts X) : After nm us X := by
  obtain ⟨p, u, r, h1, h2, h3, h4⟩ := h
  exact ⟨pre ++ t :: p, u, r, by rw [e, h1]; simp, h2, h3, h4⟩

/-- What `must`, a comma and so on look at. -/
theorem Same.sym {r : List Tok} {t : PTok} {Y : List PTok} (h : Same r (t :: Y)) {s : Sym} (hs : isSym s t = true) :
    ∃ u v, r = u :: v ∧ u.ty = .sym s ∧ Y = raw v := by
  cases r with
  | nil => rcases h with h | h <;> cases h
  | cons u v =>
    have key : .tok u :: raw v = t :: Y → ∃ u' v', u :: v = u' :: v' ∧ u'.ty = .sym s ∧ Y = raw v' := by
      intro e
      simp only [List.cons.injEq] at e
      rw [← e.1] at hs
      exact ⟨u, v, rfl, by simpa using hs, e.2.symm⟩
    rcases h with h | h
    · exact key h.symm
    · rw [raw_cons, norm.eq_def] at h
      dsimp only at h
      split at h
      · simp only [List.cons.injEq] at h; rw [h.1] at hs; cases hs
      · split at h
        · cases v with
          | nil => exact key h.symm
          | cons w v =>
            rw [raw_cons] at h
            dsimp only at h
            split at h
            · simp only [List.cons.injEq] at h; rw [h.1] at hs; cases hs
            · exact key h.symm
        · exact key h.symm

theorem Same.ne {r : List Tok} {X : List PTok} (h : Same r X) (hr : r ≠ []) : X ≠ [] := by
  cases r with
  | nil => exact absurd rfl hr
  | cons u v =>
    rcases h with rfl | rfl
    · simp
    · rw [raw_cons, norm.eq_def]
      dsimp only
      split
      · simp
      · split
        · split
          · split <;> simp
          · simp
        · simp

theorem after_src {typ : List PTok → Option (List PTok)} {nm : Prop} {ts : List Tok} (hs : Source typ ts) {X : List PTok} (h : After nm ts X) :
    ∃ pre t r, ts = pre ++ t :: r ∧ ends t.ty = true ∧ Same r X ∧ Source typ r ∧ r.length < ts.length := by
  obtain ⟨p, u, r, h1, h2, _, h3⟩ := h
  refine ⟨p, u, r, h1, h2, h3, ?_, by rw [h1]; simp; omega⟩
  rw [h1] at hs
  exact hs.drop (ends_eof h2)

/-- A symbol is expected after an expression. -/
theorem must_safe {r : List Tok} {X : List PTok} (h : Same r X) (hr : r ≠ []) (s : Sym) :
    Safe (must s X) (fun Y => ∃ u v, r = u :: v ∧ u.ty = .sym s ∧ Y = raw v) := by
  cases X with
  | nil => exact absurd rfl (h.ne hr)
  | cons t Y =>
    rw [must]
    split
    · rename_i ht
      exact h.sym ht
    · trivial

/-- The result of reading an expression. -/
def Read (typ : List PTok → Option (List PTok)) (n : Nat) (ts : List Tok) : Prop :=
  ∀ p, 1 ≤ p → Safe (prec typ n p (raw ts)) (fun x => After (Named x.1) ts x.2)

theorem expr_safe {typ : List PTok → Option (List PTok)} {n : Nat} {ts : List Tok} (h : Read typ n ts) :
    Safe (exprWith (prec typ n) (raw ts)) (fun x => After (Named x.1) ts x.2) := by
  unfold exprWith
  split
  · trivial
  · exact h 1 (by omega)

theorem raw_ne {typ : List PTok → Option (List PTok)} {ts : List Tok} (h : Source typ ts) : ∃ t r, ts = t :: r := by
  cases ts with
  | nil => exact absurd rfl h.ne
  | cons t r => exact ⟨t, r, rfl⟩

theorem not_eof {t : Tok} {s : Sym} (h : t.ty = .sym s) : t.ty ≠ .eof := by rw [h]; simp

theorem Source.tail {typ : List PTok → Option (List PTok)} {t : Tok} {r : List Tok} (h : Source typ (t :: r)) (ht : t.ty ≠ .eof) :
    Source typ r := Source.drop (pre := []) h ht

/-- Everything shorter can be read. -/
def Below (typ : List PTok → Option (List PTok)) (n : Nat) (k : Nat) : Prop :=
  ∀ ts, Source typ ts → ts.length < k → Read typ n ts

theorem sliceEnd_safe {typ : List PTok → Option (List PTok)} {n : Nat} {ts : List Tok} (hs : Source typ ts) (e a : Expr)
    (h : Below typ n (ts.length + 1)) : Safe (sliceEnd (prec typ n) e a (raw ts)) (fun x => After (Named x.1) ts x.2) := by
  obtain ⟨t, r, rfl⟩ := raw_ne hs
  rw [raw_cons, sliceEnd]
  split
  · rename_i ht
    simp only [isSym_tok, beq_iff_eq] at ht
    exact ⟨[], t, r, rfl, by rw [ht]; rfl, fun q => absurd q (not_named rfl), .inl rfl⟩
  · refine Safe.bind (expr_safe (h (t :: r) hs (by simp))) ?_
    intro x hx
    obtain ⟨pre, u, q, e1, e2, e3, e4, e5⟩ := after_src hs hx
    refine Safe.bind (must_safe e3 e4.ne _) ?_
    rintro Y ⟨u', v', rfl, h1, rfl⟩
    exact ⟨pre ++ [u], u', v', by rw [e1]; simp, by rw [h1]; rfl, fun q => absurd q (not_named rfl), .inl rfl⟩

theorem access_safe {typ : List PTok → Option (List PTok)} {n : Nat} {ts : List Tok} (hs : Source typ ts) (e : Expr)
    (h : Below typ n (ts.length + 1)) : Safe (accessWith (prec typ n) e (raw ts)) (fun x => After (Named x.1) ts x.2) := by
  obtain ⟨t, r, rfl⟩ := raw_ne hs
  rw [raw_cons, accessWith]
  split
  · rename_i ht
    simp only [isSym_tok, beq_iff_eq] at ht
    refine (sliceEnd_safe (hs.tail (not_eof ht)) e _ (fun a b c => h a b (by simp; omega))).mono ?_
    intro x hx
    exact After.more (pre := []) rfl hx
  · refine Safe.bind (expr_safe (h (t :: r) hs (by simp))) ?_
    intro x hx
    obtain ⟨pre, u, q, e1, e2, e3, e4, e5⟩ := after_src hs hx
    cases hX : x.2 with
    | nil => exact absurd hX (e3.ne e4.ne)
    | cons y Y =>
      rw [hX] at e3
      dsimp only
      split
      · rename_i hy
        obtain ⟨u', v', rfl, h1, rfl⟩ := e3.sym hy
        refine (sliceEnd_safe (e4.tail (not_eof h1)) e _ (fun a b c => h a b (by simp at e5 ⊢; omega))).mono ?_
        intro z hz
        exact After.more (pre := pre ++ [u]) (t := u') (by rw [e1]; simp) hz
      · rw [accessEnd]
        split
        · rename_i hy
          obtain ⟨u', v', rfl, h1, rfl⟩ := e3.sym hy
          exact ⟨pre ++ [u], u', v', by rw [e1]; simp, by rw [h1]; rfl, fun q => absurd q (not_named rfl), .inl rfl⟩
        · trivial

theorem ternary_safe {typ : List PTok → Option (List PTok)} {n : Nat} {ts : List Tok} (hs : Source typ ts) (c : Expr)
    (h : Below typ n (ts.length + 1)) : Safe (ternaryWith (prec typ n) c (raw ts)) (fun x => After (Named x.1) ts x.2) := by
  unfold ternaryWith
  refine Safe.bind (expr_safe (h ts hs (by simp))) ?_
  intro x hx
  obtain ⟨pre, u, q, e1, e2, e3, e4, e5⟩ := after_src hs hx
  refine Safe.bind (must_safe e3 e4.ne _) ?_
  rintro Y ⟨u', v', rfl, h1, rfl⟩
  refine Safe.bind (h v' (e4.tail (not_eof h1)) (by simp at e5; omega) 3 (by omega)) ?_
  intro z hz
  exact After.more (pre := pre ++ [u]) (t := u') (by rw [e1]; simp) (hz.weak (fun q => absurd q (not_named rfl)))

theorem select_safe {typ : List PTok → Option (List PTok)} {ts : List Tok} (hs : Source typ ts) (e : Expr) :
    Safe (selectWith e (raw ts)) (fun x => After (Named x.1) ts x.2) := by
  obtain ⟨t, r, rfl⟩ := raw_ne hs
  rw [raw_cons, selectWith]
  split
  · rename_i ht
    exact ⟨[], t, r, rfl, by rw [ht]; rfl, fun _ => by rw [ht]; rfl, .inl rfl⟩
  · trivial

theorem as_safe {typ : List PTok → Option (List PTok)} {ts : List Tok} (hs : Source typ ts) (e : Expr) :
    Safe (asWith e (raw ts)) (fun x => After (Named x.1) ts x.2) := by
  obtain ⟨t, r, rfl⟩ := raw_ne hs
  rw [raw_cons, asWith]
  split
  · rename_i k hk
    split
    · rename_i hb
      refine ⟨[], t, r, rfl, ?_, fun q => absurd q (not_named rfl), .inl rfl⟩
      rw [hk]
      cases k <;> first | rfl | cases hb
    · trivial
  · trivial

theorem unary_safe {typ : List PTok → Option (List PTok)} {n : Nat} {ts : List Tok} (hs : Source typ ts) (o : Un)
    (h : Read typ n ts) : Safe (unaryWith (prec typ n) o (raw ts)) (fun x => After (Named x.1) ts x.2) := by
  have hp : Safe ((prec typ n 15 (raw ts)).bind fun x => .ok (Expr.un o x.1, x.2)) (fun x => After (Named x.1) ts x.2) :=
    Safe.bind (h 15 (by omega)) (fun x hx => After.weak (fun q => absurd q (not_named rfl)) hx)
  obtain ⟨t, r, rfl⟩ := raw_ne hs
  unfold unaryWith
  dsimp only
  split
  · rename_i u v e
    simp only [raw_cons, List.cons.injEq, PTok.tok.injEq] at e
    obtain ⟨rfl, rfl⟩ := e
    split
    · rename_i hi; exact ⟨[], t, r, rfl, by rw [hi]; rfl, fun q => absurd q (not_named rfl), .inl rfl⟩
    · rename_i hi; exact ⟨[], t, r, rfl, by rw [hi]; rfl, fun q => absurd q (not_named rfl), .inl rfl⟩
    · exact hp
  · exact hp

/-- An element list, an argument list. -/
def ReadElems (typ : List PTok → Option (List PTok)) (n : Nat) (ts : List Tok) : Prop :=
  ∀ es, Safe (elems typ n es (raw ts)) (fun x => After False ts x.2)

def ReadArgs (typ : List PTok → Option (List PTok)) (n : Nat) (ts : List Tok) : Prop :=
  ∀ es, Safe (args typ n es (raw ts)) (fun x => After False ts x.2)

theorem prefix_safe {typ : List PTok → Option (List PTok)} {n : Nat} {ts : List Tok} (hs : Source typ ts)
    (h : Below typ n ts.length) (hT : ∀ us, Source typ us → us.length < ts.length → ReadElems typ n us) :
    Safe (prefixWith (prec typ n) (elems typ n) (raw ts)) (fun x => After (Named x.1) ts x.2) := by
  obtain ⟨t, r, rfl⟩ := raw_ne hs
  have one : ∀ {e : Expr}, ends t.ty = true → (Named e → endsName t.ty = true) → After (Named e) (t :: r) (raw r) :=
    fun q q' => ⟨[], t, r, rfl, q, q', .inl rfl⟩
  rw [raw_cons, prefixWith]
  split
  · rename_i q; exact one (by rw [q]; rfl) (fun q => absurd q (not_named rfl))
  · rename_i q; exact one (by rw [q]; rfl) (fun q => absurd q (not_named rfl))
  · rename_i q; exact one (by rw [q]; rfl) (fun q => absurd q (not_named rfl))
  · rename_i q; exact one (by rw [q]; rfl) (fun q => absurd q (not_named rfl))
  · rename_i q; exact one (by rw [q]; rfl) (fun q => absurd q (not_named rfl))
  · rename_i q; exact one (by rw [q]; rfl) (fun q => absurd q (not_named rfl))
  · rename_i q; exact one (by rw [q]; rfl) (fun _ => by rw [q]; rfl)
  · rename_i q; exact one (by rw [q]; rfl) (fun _ => by rw [q]; rfl)
  · trivial
  · trivial
  · trivial
  · trivial
  · rename_i q
    have hs' := hs.tail (not_eof q)
    refine Safe.bind (expr_safe (h r hs' (by simp))) ?_
    intro x hx
    obtain ⟨pre, u, v, e1, e2, e3, e4, e5⟩ := after_src hs' hx
    cases hX : x.2 with
    | nil => exact absurd hX (e3.ne e4.ne)
    | cons y Y =>
      rw [hX] at e3
      rw [closeParen]
      split
      · rename_i hy
        obtain ⟨u', v', rfl, h1, rfl⟩ := e3.sym hy
        exact ⟨t :: (pre ++ [u]), u', v', by rw [e1]; simp, by rw [h1]; rfl, fun _ => by rw [h1]; rfl, .inl rfl⟩
      · split
        · rename_i hy
          obtain ⟨u', v', rfl, h1, rfl⟩ := e3.sym hy
          refine Safe.bind (hT v' (e4.tail (not_eof h1)) (by simp at e5 ⊢; omega) [x.1]) ?_
          intro z hz
          exact After.more (pre := t :: (pre ++ [u])) (t := u') (by rw [e1]; simp) (hz.weak (fun q => absurd q (not_named rfl)))
        · trivial
  · split
    · rename_i s q _ o _
      have hs' := hs.tail (not_eof q)
      refine (unary_safe hs' o (h r hs' (by simp))).mono ?_
      intro x hx
      exact After.more (pre := []) rfl hx
    · trivial
  · trivial

/-- What the loop may get: the tokens after an expression. -/
structure Loop (typ : List PTok → Option (List PTok)) (nm : Prop) (r : List Tok) : Prop where
  src : Source typ r
  angle : nm → ∀ t s, r = t :: s → t.ty = .sym .leftAngle → ¬ TypeArgs typ (raw s)
  head : ∀ t s, r = t :: s → t.ty ≠ .sym .not ∧ t.ty ≠ .sym .tilde

theorem after_loop {typ : List PTok → Option (List PTok)} {nm : Prop} {ts : List Tok} (hs : Source typ ts) {X : List PTok}
    (h : After nm ts X) : ∃ pre t r, ts = pre ++ t :: r ∧ ends t.ty = true ∧ (nm → endsName t.ty = true) ∧ Same r X ∧ Loop typ nm r ∧
      r.length < ts.length := by
  obtain ⟨p, u, r, h1, h2, h3, h4⟩ := h
  refine ⟨p, u, r, h1, h2, h3, h4, ⟨?_, ?_, ?_⟩, by rw [h1]; simp; omega⟩
  · rw [h1] at hs; exact hs.drop (ends_eof h2)
  · intro q t s e
    exact hs.angle p u t s (by rw [h1, e]) (h3 q)
  · intro t s e
    exact hs.unary p u t s (by rw [h1, e]) h2

/-- The first token once normal, and what is behind it. -/
theorem norm_cases {r : List Tok} {t : PTok} {Y : List PTok} (h : norm (raw r) = t :: Y) :
    ∃ pre u v, r = pre ++ u :: v ∧ Y = raw v ∧
      (t = .less ∧ u.ty = .sym .leftAngle ∨ t = .shr ∧ u.ty = .sym .rightAngle ∨ t = .tok u ∧ pre = [] ∧ u.ty ≠ .sym .leftAngle) := by
  cases r with
  | nil => cases h
  | cons u v =>
    rw [raw_cons, norm.eq_def] at h
    dsimp only at h
    split at h
    · rename_i hl
      simp only [isSym_tok, beq_iff_eq] at hl
      simp only [List.cons.injEq] at h
      exact ⟨[], u, v, rfl, h.2.symm, .inl ⟨h.1.symm, hl⟩⟩
    · rename_i hl
      simp only [isSym_tok, beq_iff_eq] at hl
      split at h
      · cases v with
        | nil =>
          simp only [raw_nil, List.cons.injEq] at h
          exact ⟨[], u, [], rfl, h.2.symm, .inr (.inr ⟨h.1.symm, rfl, hl⟩)⟩
        | cons w v =>
          rw [raw_cons] at h
          dsimp only at h
          split at h
          · rename_i hw
            simp only [isSym_tok, beq_iff_eq] at hw
            simp only [List.cons.injEq] at h
            exact ⟨[u], w, v, rfl, h.2.symm, .inr (.inl ⟨h.1.symm, hw⟩)⟩
          · simp only [List.cons.injEq] at h
            exact ⟨[], u, w :: v, rfl, h.2.symm, .inr (.inr ⟨h.1.symm, rfl, hl⟩)⟩
      · simp only [List.cons.injEq] at h
        exact ⟨[], u, v, rfl, h.2.symm, .inr (.inr ⟨h.1.symm, rfl, hl⟩)⟩

theorem infix_safe {typ : List PTok → Option (List PTok)} {n : Nat} {nm : Prop} {r : List Tok} (hl : Loop typ nm r)
    (h : Below typ n r.length) (hA : ∀ us, Source typ us → us.length < r.length → ReadArgs typ n us) {t : PTok} {Y : List PTok}
    (hn : norm (raw r) = t :: Y) {p : Nat} (hp : p ≤ infixPrec t) (hp' : 1 ≤ p) (e : Expr) :
    Safe (infixWith typ (prec typ n) (args typ n) e (t :: Y)) (fun x => After (Named x.1) r x.2) := by
  obtain ⟨pre, u, v, e1, rfl, e3⟩ := norm_cases hn
  have ue : u.ty ≠ .eof := by
    rcases e3 with ⟨_, q⟩ | ⟨_, q⟩ | ⟨rfl, _, _⟩
    · exact not_eof q
    · exact not_eof q
    · intro q
      simp only [infixPrec, q] at hp
      omega
  have hv : Source typ v := by have := hl.src; rw [e1] at this; exact this.drop ue
  have lv : v.length < r.length := by rw [e1]; simp; omega
  have more : ∀ {nm nm' : Prop} {X : List PTok}, (nm' → nm) → After nm v X → After nm' r X := fun a q => After.more e1 (q.weak a)
  have hb : Below typ n (v.length + 1) := fun a b c => h a b (by omega)
  rw [infixWith]
  split
  · exact Safe.bind (h v hv lv _ (by omega)) (fun x hx => more (fun q => absurd q (not_named rfl)) hx)
  · rename_i ho
    split
    · exact Safe.bind (hA v hv lv []) (fun x hx => more (fun q => absurd q (not_named rfl)) hx)
    · split
      · exact (access_safe hv e hb).mono (fun x hx => more id hx)
      · split
        · exact (select_safe hv e).mono (fun x hx => more id hx)
        · split
          · exact (ternary_safe hv e hb).mono (fun x hx => more id hx)
          · split
            · rename_i ha
              rcases e3 with ⟨rfl, _⟩ | ⟨rfl, _⟩ | ⟨rfl, _, q⟩
              · cases ha
              · cases ha
              · simp only [isSym_tok, beq_iff_eq] at ha; exact absurd ha q
            · split
              · exact (as_safe hv e).mono (fun x hx => more id hx)
              · split
                · trivial
                · rename_i k1 k2 k3 k4 k5 k6 k7
                  rcases e3 with ⟨rfl, _⟩ | ⟨rfl, _⟩ | ⟨rfl, rfl, q⟩
                  · cases ho
                  · cases ho
                  · exfalso
                    obtain ⟨h5, h6⟩ := hl.head u v e1
                    obtain ⟨ty, w⟩ := u
                    simp only [isSym_tok, isKw_tok, beq_iff_eq, Bool.or_eq_true, not_or] at k1 k2 k3 k4 k5 k6 k7 h5 h6 ue
                    cases ty with
                    | sym s => cases s <;> simp_all [infixPrec, symPrec, tokOp, symOp] <;> omega
                    | kw k => cases k <;> simp_all [infixPrec] <;> omega
                    | _ => simp_all [infixPrec] <;> omega

theorem all_safe {typ : List PTok → Option (List PTok)} : ∀ n : Nat,
    (∀ ts, Source typ ts → 2 * ts.length + 1 ≤ n → ∀ p, 1 ≤ p → Safe (prec typ n p (raw ts)) (fun x => After (Named x.1) ts x.2)) ∧
    (∀ r X e, Loop typ (Named e) r → Same r X → 2 * r.length + 1 ≤ n → ∀ p, 1 ≤ p → Safe (loop typ n p e X) (fun x => (x.1 = e ∧ Same r x.2) ∨ After (Named x.1) r x.2)) ∧
    (∀ ts, Source typ ts → 2 * ts.length + 2 ≤ n → ReadArgs typ n ts) ∧
    (∀ ts, Source typ ts → 2 * ts.length + 2 ≤ n → ReadElems typ n ts) := by
  intro n
  induction n with
  | zero => exact ⟨fun _ _ h => by omega, fun _ _ _ _ _ h => by omega, fun _ _ h => by omega, fun _ _ h => by omega⟩
  | succ n ih =>
    obtain ⟨ih1, ih2, ih3, ih4⟩ := ih
    have below : ∀ k, 2 * k ≤ n + 1 → Below typ n k := fun k hk ts hs hlt p hp => ih1 ts hs (by omega) p hp
    refine ⟨?_, ?_, ?_, ?_⟩
    · intro ts hs hn p hp
      rw [prec]
      refine Safe.bind (prefix_safe hs (below _ (by omega)) (fun us a b => ih4 us a (by omega))) ?_
      intro x hx
      obtain ⟨pre, t, r, e1, e2, e2', e3, e4, e5⟩ := after_loop hs hx
      refine (ih2 r x.2 x.1 e4 e3 (by omega) p hp).mono ?_
      rintro y (hy | hy)
      · exact ⟨pre, t, r, e1, e2, by rw [hy.1]; exact e2', hy.2⟩
      · exact After.more e1 hy
    · intro r X e hl hX hn p hp
      have hready : Ready typ e r := hl.angle
      rw [loop_norm hready hX, loop, infixTok_done]
      cases hN : norm (raw r) with
      | nil => exact absurd hN (Same.ne (.inr rfl) hl.src.ne)
      | cons t Y =>
        dsimp only
        split
        · rename_i hge
          refine Safe.bind (infix_safe hl (below _ (by omega)) (fun us a b => ih3 us a (by omega)) hN hge hp e) ?_
          intro x hx
          obtain ⟨pre, t, q, e1, e2, e2', e3, e4, e5⟩ := after_loop hl.src hx
          refine (ih2 q x.2 x.1 e4 e3 (by omega) p hp).mono ?_
          rintro y (hy | hy)
          · exact .inr ⟨pre, t, q, e1, e2, by rw [hy.1]; exact e2', hy.2⟩
          · exact .inr (After.more e1 hy)
        · exact .inl ⟨rfl, .inr hN.symm⟩
    · intro ts hs hn es
      obtain ⟨t, r, rfl⟩ := raw_ne hs
      rw [raw_cons, args]
      split
      · rename_i ht
        simp only [isSym_tok, beq_iff_eq] at ht
        exact ⟨[], t, r, rfl, by rw [ht]; rfl, False.elim, .inl rfl⟩
      · split
        · rename_i ht
          simp only [isSym_tok, beq_iff_eq] at ht
          have hs' := hs.tail (not_eof ht)
          refine Safe.bind (expr_safe (ih1 r hs' (by simp at hn; omega))) ?_
          intro x hx
          obtain ⟨pre, u, q, e1, e2, e3, e4, e5⟩ := after_src hs' hx
          refine Safe.bind (must_safe e3 e4.ne _) ?_
          rintro Y ⟨u', v', rfl, h1, rfl⟩
          exact ⟨t :: (pre ++ [u]), u', v', by rw [e1]; simp, by rw [h1]; rfl, False.elim, .inl rfl⟩
        · refine Safe.bind (expr_safe (ts := t :: r) (ih1 _ hs (by omega))) ?_
          intro x hx
          obtain ⟨pre, u, q, e1, e2, e3, e4, e5⟩ := after_src hs hx
          cases hX : x.2 with
          | nil => exact absurd hX (e3.ne e4.ne)
          | cons y Y =>
            rw [hX] at e3
            dsimp only
            split
            · rename_i hy
              obtain ⟨u', v', rfl, h1, rfl⟩ := e3.sym hy
              exact ⟨pre ++ [u], u', v', by rw [e1]; simp, by rw [h1]; rfl, False.elim, .inl rfl⟩
            · split
              · rename_i hy
                obtain ⟨u', v', rfl, h1, rfl⟩ := e3.sym hy
                refine (ih3 v' (e4.tail (not_eof h1)) (by simp at e5 hn; omega) (x.1 :: es)).mono ?_
                intro z hz
                exact After.more (pre := pre ++ [u]) (t := u') (by rw [e1]; simp) hz
              · trivial
    · intro ts hs hn es
      rw [elems]
      refine Safe.bind (expr_safe (ih1 _ hs (by omega))) ?_
      intro x hx
      obtain ⟨pre, u, q, e1, e2, e3, e4, e5⟩ := after_src hs hx
      cases hX : x.2 with
      | nil => exact absurd hX (e3.ne e4.ne)
      | cons y Y =>
        rw [hX] at e3
        dsimp only
        split
        · rename_i hy
          obtain ⟨u', v', rfl, h1, rfl⟩ := e3.sym hy
          exact ⟨pre ++ [u], u', v', by rw [e1]; simp, by rw [h1]; rfl, False.elim, .inl rfl⟩
        · split
          · rename_i hy
            obtain ⟨u', v', rfl, h1, rfl⟩ := e3.sym hy
            have hs' := e4.tail (not_eof h1)
            obtain ⟨w, v, rfl⟩ := raw_ne hs'
            rw [raw_cons]
            dsimp only
            split
            · rename_i hw
              simp only [isSym_tok, beq_iff_eq] at hw
              exact ⟨pre ++ [u, u'], w, v, by rw [e1]; simp, by rw [hw]; rfl, False.elim, .inl rfl⟩
            · refine (ih4 (w :: v) hs' (by simp at e5 hn ⊢; omega) (x.1 :: es)).mono ?_
              intro z hz
              exact After.more (pre := pre ++ [u]) (t := u') (by rw [e1]; simp) hz
          · trivial

end Nature.Parse
