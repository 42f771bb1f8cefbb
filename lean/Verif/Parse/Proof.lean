/-
What is written is what is read.
-/
import Verif.Parse.Lemmas
namespace Nature.Parse
open Nature.Scan (Tok Ty Sym Kw)

/-- The tokens an expression can begin with. -/
def starts : Ty → Bool
  | .int | .float | .str | .ident | .kw .kTrue | .kw .kFalse | .kw .kNull => true
  | .sym .leftParen | .sym .minus | .sym .not | .sym .tilde | .sym .and | .sym .star => true
  | _ => false

def Begins : Job → List Tok → Prop
  | .unit _, ts | .chain _ _, ts | .whole _ _, ts => ∃ t s, ts = t :: s ∧ starts t.ty = true
  | _, ts => 1 ≤ ts.length

theorem Writes.begins {typ : List PTok → Option (List PTok)} {j : Job} {ts r : List Tok} (h : Writes typ j ts r) : Begins j ts := by
  induction h with
  | un => rename_i o _ _ _ _ _ _; exact ⟨_, _, rfl, by cases o <;> rfl⟩
  | unit _ ih => exact ih
  | whole _ _ ih => exact ih
  | bin _ _ _ _ ih _ => obtain ⟨t, s, rfl, h⟩ := ih; exact ⟨t, _, rfl, h⟩
  | as _ _ _ ih => obtain ⟨t, s, rfl, h⟩ := ih; exact ⟨t, _, rfl, h⟩
  | cond _ _ _ _ _ ih _ _ => obtain ⟨t, s, rfl, h⟩ := ih; exact ⟨t, _, rfl, h⟩
  | select _ _ ih => obtain ⟨t, s, rfl, h⟩ := ih; exact ⟨t, _, rfl, h⟩
  | access _ _ _ _ ih _ => obtain ⟨t, s, rfl, h⟩ := ih; exact ⟨t, _, rfl, h⟩
  | sliceAll _ _ ih => obtain ⟨t, s, rfl, h⟩ := ih; exact ⟨t, _, rfl, h⟩
  | sliceFrom _ _ _ _ ih _ => obtain ⟨t, s, rfl, h⟩ := ih; exact ⟨t, _, rfl, h⟩
  | sliceTo _ _ _ _ ih _ => obtain ⟨t, s, rfl, h⟩ := ih; exact ⟨t, _, rfl, h⟩
  | slice _ _ _ _ _ _ ih _ _ => obtain ⟨t, s, rfl, h⟩ := ih; exact ⟨t, _, rfl, h⟩
  | call _ _ _ ih _ => obtain ⟨t, s, rfl, h⟩ := ih; exact ⟨t, _, rfl, h⟩
  | noArg => simp [Begins]
  | arg => simp [Begins]
  | moreArgs => simp [Begins]; omega
  | spread => simp [Begins]
  | elem => simp [Begins]
  | elemComma => simp [Begins]
  | moreElems => simp [Begins]; omega
  | _ => exact ⟨_, _, rfl, rfl⟩

theorem starts_ne {t : Tok} (h : starts t.ty = true) {s : Sym} (hs : starts (.sym s) = false) : t.ty ≠ .sym s := by
  intro e; rw [e, hs] at h; cases h

/-- What the parser does with something that is written. -/
def Reads (typ : List PTok → Option (List PTok)) : Job → List Tok → List Tok → Prop
  | .unit e, ts, r => ∀ n, 2 * (ts.length + r.length) ≤ n →
      ∃ X, (X = raw r ∨ X = norm (raw r)) ∧ prefixWith (prec typ n) (elems typ n) (raw (ts ++ r)) = .ok (e, X)
  | .chain p e, ts, r => Ready typ e r → ∀ n, 2 * (ts.length + r.length) + 1 ≤ n →
      ∃ m, n ≤ m + ts.length ∧ prec typ n p (raw (ts ++ r)) = loop typ m p e (norm (raw r))
  | .whole p e, ts, r => ∀ n, 2 * (ts.length + r.length) + 1 ≤ n → prec typ n p (raw (ts ++ r)) = .ok (e, norm (raw r))
  | .args es s, ts, r => ∀ n acc, 2 * (ts.length + r.length) + 2 ≤ n →
      args typ n acc (raw (ts ++ r)) = .ok ((acc.reverse ++ es, s), raw r)
  | .elems es, ts, r => ∀ n acc, 2 * (ts.length + r.length) + 2 ≤ n →
      elems typ n acc (raw (ts ++ r)) = .ok (acc.reverse ++ es, raw r)

/-- An expression in front of a symbol that is not an angle. -/
theorem expr_read {typ : List PTok → Option (List PTok)} {e : Expr} {ts : List Tok} {t : Tok} {r : List Tok} (hf : Free (ts ++ t :: r))
    (h : Reads typ (.whole 1 e) ts (t :: r)) (h1 : t.ty ≠ .sym .leftAngle) (h2 : t.ty ≠ .sym .rightAngle) {n : Nat}
    (hn : 2 * (ts.length + r.length + 1) + 1 ≤ n) : exprWith (prec typ n) (raw (ts ++ t :: r)) = .ok (e, .tok t :: raw r) := by
  rw [free_expr hf, h n (by simp; omega), raw_cons, norm_other h1 h2]

theorem loop_step {typ : List PTok → Option (List PTok)} {e e' : Expr} {t : PTok} {r r' : List PTok} {m p : Nat}
    (hs : infixTok typ e (t :: r) = t :: r) (hp : p ≤ infixPrec t)
    (hi : infixWith typ (prec typ m) (args typ m) e (t :: r) = .ok (e', r')) :
    loop typ (m + 1) p e (t :: r) = loop typ m p e' r' := by
  rw [loop, hs]
  dsimp only
  rw [if_pos hp, hi]
  rfl

theorem Writes.reads {typ : List PTok → Option (List PTok)} {j : Job} {ts r : List Tok} (h : Writes typ j ts r) : Reads typ j ts r := by
  induction h with
  | int => intro n hn; exact ⟨_, .inl rfl, rfl⟩
  | negInt => intro n hn; exact ⟨_, .inl rfl, rfl⟩
  | float => intro n hn; exact ⟨_, .inl rfl, rfl⟩
  | negFloat => intro n hn; exact ⟨_, .inl rfl, rfl⟩
  | str => intro n hn; exact ⟨_, .inl rfl, rfl⟩
  | true => intro n hn; exact ⟨_, .inl rfl, rfl⟩
  | false => intro n hn; exact ⟨_, .inl rfl, rfl⟩
  | null => intro n hn; exact ⟨_, .inl rfl, rfl⟩
  | ident => intro n hn; exact ⟨_, .inl rfl, rfl⟩
  | un hneg hw ih =>
    rename_i o e ts r
    intro n hn
    refine ⟨norm (raw r), .inr rfl, ?_⟩
    have hp := ih n (by simp at hn; omega)
    obtain ⟨t, s, e1, hst⟩ := hw.begins
    have hu : unaryWith (prec typ n) o (raw (ts ++ r)) = .ok (.un o e, norm (raw r)) := by
      unfold unaryWith
      dsimp only
      rw [hp]
      split
      · rename_i u v huv
        rw [e1] at huv
        simp only [List.cons_append, raw_cons, List.cons.injEq, PTok.tok.injEq] at huv
        obtain ⟨i1, i2⟩ := hneg rfl t s e1
        rw [huv.1] at i1 i2
        split
        · rename_i q; exact absurd q i1
        · rename_i q; exact absurd q i2
        · rfl
      · rfl
    cases o <;> exact hu
  | paren hf hw ih =>
    rename_i e ts r
    intro n hn
    refine ⟨raw r, .inl rfl, ?_⟩
    have hx := expr_read hf ih (by simp) (by simp) (n := n) (by simp at hn; omega)
    have hl : sy .leftParen :: (ts ++ [sy .rightParen]) ++ r = sy .leftParen :: (ts ++ sy .rightParen :: r) := by simp
    rw [hl, raw_cons, prefixWith]
    simp only [sy_ty]
    rw [hx]
    rfl
  | tuple hf hw hes ih1 ih2 =>
    rename_i e es ts us r
    intro n hn
    refine ⟨raw r, .inl rfl, ?_⟩
    have hx := expr_read hf ih1 (by simp) (by simp) (n := n) (by simp at hn ⊢; omega)
    have hl : sy .leftParen :: (ts ++ sy .comma :: us) ++ r = sy .leftParen :: (ts ++ sy .comma :: (us ++ r)) := by simp
    rw [hl, raw_cons, prefixWith]
    simp only [sy_ty]
    rw [hx]
    have hy := ih2 n [e] (by simp at hn; omega)
    simp only [bind_ok, closeParen]
    rw [if_neg (by decide), if_pos (by decide), hy]
    rfl
  | unit hw ih =>
    rename_i p e ts r
    intro hr n hn
    cases n with
    | zero => omega
    | succ n =>
      obtain ⟨X, hX, hp⟩ := ih n (by omega)
      obtain ⟨t, s, e1, _⟩ := hw.begins
      refine ⟨n, by rw [e1]; simp, ?_⟩
      rw [prec, hp]
      exact loop_norm hr hX n p
  | bin ha hp hlt hb iha ihb =>
    rename_i p o a b ts us r
    intro hr n hn
    have hpos := spell_pos o
    obtain ⟨t, s, e1, hst⟩ := hb.begins
    have hnorm := norm_spell o (us ++ r) (by
      intro t' s' e
      rw [e1] at e
      simp only [List.cons_append, List.cons.injEq] at e
      rw [← e.1]; exact starts_ne hst rfl)
    obtain ⟨m, hm, hrun⟩ := iha (ready_spell hlt) n (by simp at hn ⊢; omega)
    simp only [List.length_append] at hn
    cases m with
    | zero => omega
    | succ m =>
      refine ⟨m, by simp; omega, ?_⟩
      have hl : ts ++ (o.spell ++ us) ++ r = ts ++ (o.spell ++ (us ++ r)) := by simp
      rw [hl, hrun, hnorm]
      have hd : infixTok typ a (o.tok :: raw (us ++ r)) = o.tok :: raw (us ++ r) := by rw [← hnorm]; exact infixTok_done _
      refine loop_step hd (by rw [(bin_tok o).2]; exact hp) ?_
      unfold infixWith
      dsimp only
      rw [(bin_tok o).1]
      dsimp only
      rw [(bin_tok o).2, ihb m (by omega)]
      rfl
  | as ha hp hk iha =>
    rename_i p k w w' e ts r
    intro hr n hn
    obtain ⟨m, hm, hrun⟩ := iha (ready_other (by simp)) n (by simp at hn ⊢; omega)
    simp only [List.length_append, List.length_cons, List.length_nil] at hn
    cases m with
    | zero => omega
    | succ m =>
      refine ⟨m, by simp; omega, ?_⟩
      have hl : ts ++ [⟨.kw .kAs, w⟩, ⟨.kw k, w'⟩] ++ r = ts ++ (⟨.kw .kAs, w⟩ :: ⟨.kw k, w'⟩ :: r) := by simp
      rw [hl, hrun, raw_cons, norm_other (by simp) (by simp)]
      refine (loop_step (r' := raw r) (e' := .as e k) rfl hp ?_).trans (loop_norm hr (.inl rfl) m p)
      simp [infixWith, tokOp, asWith, hk]
  | cond hc hp hf ha hb ihc iha ihb =>
    rename_i p c a b ts us vs r
    intro hr n hn
    obtain ⟨m, hm, hrun⟩ := ihc (ready_other (by simp)) n (by simp at hn ⊢; omega)
    simp only [List.length_append, List.length_cons] at hn
    cases m with
    | zero => omega
    | succ m =>
      refine ⟨m, by simp; omega, ?_⟩
      have hl : ts ++ sy .question :: (us ++ sy .colon :: vs) ++ r = ts ++ (sy .question :: (us ++ sy .colon :: (vs ++ r))) := by simp
      rw [hl, hrun, raw_cons, norm_other (by simp) (by simp)]
      refine loop_step rfl hp ?_
      have hx := expr_read hf iha (by simp) (by simp) (n := m) (by simp; omega)
      have hy := ihb m (by omega)
      show ternaryWith (prec typ m) c (raw (us ++ sy .colon :: (vs ++ r))) = _
      unfold ternaryWith
      rw [hx]
      simp only [bind_ok, must, isSym_tok, sy_ty, beq_self_eq_true, if_true]
      rw [hy]
      rfl
  | select ha hp iha =>
    rename_i p w e ts r
    intro hr n hn
    obtain ⟨m, hm, hrun⟩ := iha (ready_other (by simp)) n (by simp at hn ⊢; omega)
    simp only [List.length_append, List.length_cons, List.length_nil] at hn
    cases m with
    | zero => omega
    | succ m =>
      refine ⟨m, by simp; omega, ?_⟩
      have hl : ts ++ [sy .dot, ⟨.ident, w⟩] ++ r = ts ++ (sy .dot :: ⟨.ident, w⟩ :: r) := by simp
      rw [hl, hrun, raw_cons, norm_other (by simp) (by simp)]
      exact (loop_step (r' := raw r) (e' := .select e w) rfl hp rfl).trans (loop_norm hr (.inl rfl) m p)
  | access ha hp hf hk iha ihk =>
    rename_i p e k ts us r
    intro hr n hn
    obtain ⟨m, hm, hrun⟩ := iha (ready_other (by simp)) n (by simp at hn ⊢; omega)
    simp only [List.length_append, List.length_cons, List.length_nil] at hn
    cases m with
    | zero => omega
    | succ m =>
      refine ⟨m, by simp; omega, ?_⟩
      have hl : ts ++ sy .leftSquare :: (us ++ [sy .rightSquare]) ++ r = ts ++ (sy .leftSquare :: (us ++ sy .rightSquare :: r)) := by simp
      rw [hl, hrun, raw_cons, norm_other (by simp) (by simp)]
      refine (loop_step (r' := raw r) (e' := .access e k) rfl hp ?_).trans (loop_norm hr (.inl rfl) m p)
      have hx := expr_read hf ihk (by simp) (by simp) (n := m) (by omega)
      show accessWith (prec typ m) e (raw (us ++ sy .rightSquare :: r)) = _
      obtain ⟨t, s, e1, hst⟩ := hk.begins
      rw [e1] at hx ⊢
      rw [List.cons_append, raw_cons, accessWith, if_neg (by simpa using starts_ne hst rfl)]
      rw [List.cons_append, raw_cons] at hx
      rw [hx]
      rfl
  | sliceAll ha hp iha =>
    rename_i p e ts r
    intro hr n hn
    obtain ⟨m, hm, hrun⟩ := iha (ready_other (by simp)) n (by simp at hn ⊢; omega)
    simp only [List.length_append, List.length_cons, List.length_nil] at hn
    cases m with
    | zero => omega
    | succ m =>
      refine ⟨m, by simp; omega, ?_⟩
      have hl : ts ++ [sy .leftSquare, sy .range, sy .rightSquare] ++ r = ts ++ (sy .leftSquare :: sy .range :: sy .rightSquare :: r) := by simp
      rw [hl, hrun, raw_cons, norm_other (by simp) (by simp)]
      refine (loop_step (r' := raw r) rfl hp ?_).trans (loop_norm hr (.inl rfl) m p)
      rfl
  | sliceFrom ha hp hf hk iha ihk =>
    rename_i p e a ts us r
    intro hr n hn
    obtain ⟨m, hm, hrun⟩ := iha (ready_other (by simp)) n (by simp at hn ⊢; omega)
    simp only [List.length_append, List.length_cons, List.length_nil] at hn
    cases m with
    | zero => omega
    | succ m =>
      refine ⟨m, by simp; omega, ?_⟩
      have hl : ts ++ sy .leftSquare :: (us ++ [sy .range, sy .rightSquare]) ++ r = ts ++ (sy .leftSquare :: (us ++ sy .range :: sy .rightSquare :: r)) := by simp
      rw [hl, hrun, raw_cons, norm_other (by simp) (by simp)]
      refine (loop_step (r' := raw r) rfl hp ?_).trans (loop_norm hr (.inl rfl) m p)
      have hx := expr_read hf ihk (by simp) (by simp) (n := m) (by simp; omega)
      show accessWith (prec typ m) e (raw (us ++ sy .range :: sy .rightSquare :: r)) = _
      obtain ⟨t, s, e1, hst⟩ := hk.begins
      rw [e1] at hx ⊢
      rw [List.cons_append, raw_cons, accessWith, if_neg (by simpa using starts_ne hst rfl)]
      rw [List.cons_append, raw_cons] at hx
      rw [hx]
      rfl
  | sliceTo ha hp hg hb iha ihb =>
    rename_i p e b ts vs r
    intro hr n hn
    obtain ⟨m, hm, hrun⟩ := iha (ready_other (by simp)) n (by simp at hn ⊢; omega)
    simp only [List.length_append, List.length_cons, List.length_nil] at hn
    cases m with
    | zero => omega
    | succ m =>
      refine ⟨m, by simp; omega, ?_⟩
      have hl : ts ++ sy .leftSquare :: sy .range :: (vs ++ [sy .rightSquare]) ++ r = ts ++ (sy .leftSquare :: sy .range :: (vs ++ sy .rightSquare :: r)) := by simp
      rw [hl, hrun, raw_cons, norm_other (by simp) (by simp)]
      refine (loop_step (r' := raw r) rfl hp ?_).trans (loop_norm hr (.inl rfl) m p)
      have hy := expr_read hg ihb (by simp) (by simp) (n := m) (by omega)
      obtain ⟨t', s', e2, hst'⟩ := hb.begins
      have hz : ∀ a : Expr, sliceEnd (prec typ m) e a (raw (vs ++ sy .rightSquare :: r)) = .ok (.slice e a b, raw r) := by
        intro a
        rw [e2] at hy ⊢
        rw [List.cons_append, raw_cons] at hy ⊢
        rw [sliceEnd, if_neg (by simpa using starts_ne hst' rfl), hy]
        simp [must]
      exact hz _
  | slice ha hp hf hk hg hb iha ihk ihb =>
    rename_i p e a b ts us vs r
    intro hr n hn
    obtain ⟨m, hm, hrun⟩ := iha (ready_other (by simp)) n (by simp at hn ⊢; omega)
    simp only [List.length_append, List.length_cons, List.length_nil] at hn
    cases m with
    | zero => omega
    | succ m =>
      refine ⟨m, by simp; omega, ?_⟩
      have hl : ts ++ sy .leftSquare :: (us ++ sy .range :: (vs ++ [sy .rightSquare])) ++ r = ts ++ (sy .leftSquare :: (us ++ sy .range :: (vs ++ sy .rightSquare :: r))) := by simp
      rw [hl, hrun, raw_cons, norm_other (by simp) (by simp)]
      refine (loop_step (r' := raw r) rfl hp ?_).trans (loop_norm hr (.inl rfl) m p)
      have hy := expr_read hg ihb (by simp) (by simp) (n := m) (by omega)
      obtain ⟨t', s', e2, hst'⟩ := hb.begins
      have hz : ∀ a : Expr, sliceEnd (prec typ m) e a (raw (vs ++ sy .rightSquare :: r)) = .ok (.slice e a b, raw r) := by
        intro a
        rw [e2] at hy ⊢
        rw [List.cons_append, raw_cons] at hy ⊢
        rw [sliceEnd, if_neg (by simpa using starts_ne hst' rfl), hy]
        simp [must]
      have hx := expr_read hf ihk (by simp) (by simp) (n := m) (by simp; omega)
      show accessWith (prec typ m) e (raw (us ++ sy .range :: (vs ++ sy .rightSquare :: r))) = _
      obtain ⟨t, s, e1, hst⟩ := hk.begins
      rw [e1] at hx ⊢
      rw [List.cons_append, raw_cons, accessWith, if_neg (by simpa using starts_ne hst rfl)]
      rw [List.cons_append, raw_cons] at hx
      rw [hx]
      exact hz _
  | call ha hp hargs iha ihargs =>
    rename_i p e es s ts us r
    intro hr n hn
    obtain ⟨m, hm, hrun⟩ := iha (ready_other (by simp)) n (by simp at hn ⊢; omega)
    simp only [List.length_append, List.length_cons] at hn
    cases m with
    | zero => omega
    | succ m =>
      refine ⟨m, by simp; omega, ?_⟩
      have hl : ts ++ sy .leftParen :: us ++ r = ts ++ (sy .leftParen :: (us ++ r)) := by simp
      rw [hl, hrun, raw_cons, norm_other (by simp) (by simp)]
      refine (loop_step (r' := raw r) (e' := .call e es s) rfl hp ?_).trans (loop_norm hr (.inl rfl) m p)
      have hx := ihargs m [] (by omega)
      simp [infixWith, tokOp, symOp] 
      rw [raw_append] at hx
      rw [hx]
      rfl
  | whole hw hs ih =>
    rename_i p e ts r
    intro n hn
    obtain ⟨m, hm, hrun⟩ := ih (stops_ready hs) n hn
    obtain ⟨t, s, e1, e2⟩ := follow_norm hs
    cases m with
    | zero => omega
    | succ m =>
      rw [hrun, loop, infixTok_done, e1]
      dsimp only
      rw [if_neg (by omega)]
  | noArg =>
    intro n acc hn
    cases n with
    | zero => omega
    | succ n => simp [args]
  | arg hf hw ih =>
    rename_i e ts r
    intro n acc hn
    simp only [List.length_append, List.length_cons, List.length_nil] at hn
    cases n with
    | zero => omega
    | succ n =>
      have hx := expr_read hf ih (by simp) (by simp) (n := n) (by omega)
      have hl : ts ++ [sy .rightParen] ++ r = ts ++ sy .rightParen :: r := by simp
      rw [hl]
      obtain ⟨t, s, e1, hst⟩ := hw.begins
      rw [e1] at hx ⊢
      rw [List.cons_append, raw_cons] at hx ⊢
      rw [args, if_neg (by simpa using starts_ne hst rfl), if_neg (by simpa using starts_ne hst rfl), hx]
      simp
  | moreArgs hf hw hes ih1 ih2 =>
    rename_i e es sp ts us r
    intro n acc hn
    simp only [List.length_append, List.length_cons] at hn
    cases n with
    | zero => omega
    | succ n =>
      have hx := expr_read hf ih1 (by simp) (by simp) (n := n) (by simp; omega)
      have hl : ts ++ sy .comma :: us ++ r = ts ++ sy .comma :: (us ++ r) := by simp
      rw [hl]
      obtain ⟨t, s, e1, hst⟩ := hw.begins
      have hy := ih2 n (e :: acc) (by omega)
      rw [e1] at hx ⊢
      rw [List.cons_append, raw_cons] at hx ⊢
      rw [args, if_neg (by simpa using starts_ne hst rfl), if_neg (by simpa using starts_ne hst rfl), hx]
      simp only [bind_ok]
      rw [if_neg (by decide), if_pos (by decide), hy]
      simp
  | spread hf hw ih =>
    rename_i e ts r
    intro n acc hn
    simp only [List.length_append, List.length_cons, List.length_nil] at hn
    cases n with
    | zero => omega
    | succ n =>
      have hx := expr_read hf ih (by simp) (by simp) (n := n) (by omega)
      have hl : sy .ellipsis :: (ts ++ [sy .rightParen]) ++ r = sy .ellipsis :: (ts ++ sy .rightParen :: r) := by simp
      rw [hl, raw_cons, args, if_neg (by decide), if_pos (by decide), hx]
      simp [must]
  | elem hf hw ih =>
    rename_i e ts r
    intro n acc hn
    simp only [List.length_append, List.length_cons, List.length_nil] at hn
    cases n with
    | zero => omega
    | succ n =>
      have hx := expr_read hf ih (by simp) (by simp) (n := n) (by omega)
      have hl : ts ++ [sy .rightParen] ++ r = ts ++ sy .rightParen :: r := by simp
      rw [hl, elems, hx]
      simp
  | elemComma hf hw ih =>
    rename_i e ts r
    intro n acc hn
    simp only [List.length_append, List.length_cons, List.length_nil] at hn
    cases n with
    | zero => omega
    | succ n =>
      have hx := expr_read hf ih (by simp) (by simp) (n := n) (by simp; omega)
      have hl : ts ++ [sy .comma, sy .rightParen] ++ r = ts ++ sy .comma :: sy .rightParen :: r := by simp
      rw [hl, elems, hx]
      simp
  | moreElems hf hw hes ih1 ih2 =>
    rename_i e es ts us r
    intro n acc hn
    simp only [List.length_append, List.length_cons] at hn
    cases n with
    | zero => omega
    | succ n =>
      have hx := expr_read hf ih1 (by simp) (by simp) (n := n) (by simp; omega)
      have hl : ts ++ sy .comma :: us ++ r = ts ++ sy .comma :: (us ++ r) := by simp
      have hy := ih2 n (e :: acc) (by omega)
      have hb : ∃ t s, us = t :: s ∧ starts t.ty = Bool.true := by
        cases hes with
        | elem _ hw' => obtain ⟨t, s, e1, hst⟩ := hw'.begins; exact ⟨t, _, by rw [e1]; rfl, hst⟩
        | elemComma _ hw' => obtain ⟨t, s, e1, hst⟩ := hw'.begins; exact ⟨t, _, by rw [e1]; rfl, hst⟩
        | moreElems _ hw' _ => obtain ⟨t, s, e1, hst⟩ := hw'.begins; exact ⟨t, _, by rw [e1]; rfl, hst⟩
      obtain ⟨t, s, e1, hst⟩ := hb
      rw [hl, elems, hx]
      simp only [bind_ok]
      rw [if_neg (by decide), if_pos (by decide)]
      rw [e1, List.cons_append, raw_cons] at hy ⊢
      dsimp only
      rw [if_neg (by simpa using starts_ne hst rfl), hy]
      simp

end Nature.Parse
