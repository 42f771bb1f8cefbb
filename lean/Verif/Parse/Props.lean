/-
C71 and C72: expressions are read as they are written, and wrong ones are reported.
-/
import Verif.Parse.Proof
import Verif.Parse.Total
namespace Nature.Parse
open Nature.Scan (Tok Ty Sym Kw)

/-- At the outermost level the tokens after the expression do not change. -/
theorem stops_raw {typ : List PTok → Option (List PTok)} {e : Expr} {r : List Tok} (h : Stops typ 1 e r) : norm (raw r) = raw r := by
  cases r with
  | nil => rfl
  | cons t s =>
    have h2 := h.less
    refine norm_other ?_ ?_
    · intro e; simp only [follow, e] at h2; omega
    · intro e; simp only [follow, e] at h2; split at h2 <;> omega

/-- C71 (partial): what is written as an expression is read as that expression, to its last token and no further: operators that
bind more tightly first, those of the same level from the left, the conditional from the right.  Partial: literals, names, unary and
binary operators, `?:`, `as` with a basic type, selections, indices, slices, calls, parentheses and tuples; not closures, struct,
vector and map values, `is`, `catch`, `match`, macros, `new`, `go` and calls with type arguments. -/
theorem C71_reads_partial {typ : List PTok → Option (List PTok)} {e : Expr} {ts r : List Tok} (h : Writes typ (.whole 1 e) ts r) :
    parse typ (raw (ts ++ r)) = .ok (e, raw r) := by
  have hs : Stops typ 1 e r := by cases h with | whole _ hs => exact hs
  unfold parse
  rw [h.reads _ (by rw [raw_length, List.length_append]; omega), stops_raw hs]

/-- C71: the same text is never two expressions. -/
theorem C71_unique {typ : List PTok → Option (List PTok)} {e e' : Expr} {ts ts' r r' : List Tok} (h : Writes typ (.whole 1 e) ts r)
    (h' : Writes typ (.whole 1 e') ts' r') (heq : ts ++ r = ts' ++ r') : e = e' ∧ ts = ts' ∧ r = r' := by
  have h1 := C71_reads_partial h
  rw [heq, C71_reads_partial h'] at h1
  simp only [Out.ok.injEq, Prod.mk.injEq] at h1
  have hr : r' = r := by
    have := h1.2
    unfold raw at this
    exact List.map_inj_right (fun a b e => by cases e; rfl) |>.mp this
  subst hr
  exact ⟨h1.1.symm, List.append_cancel_right heq, rfl⟩

theorem unit_not_angle {typ : List PTok → Option (List PTok)} {e : Expr} {ts r : List Tok} (h : Writes typ (.unit e) ts r) :
    ∃ t s, ts = t :: s ∧ t.ty ≠ .sym .rightAngle := by
  obtain ⟨t, s, e1, e2⟩ := h.begins
  exact ⟨t, s, e1, starts_ne e2 rfl⟩

theorem follow_spell (o : Bin) {t : Tok} {s : List Tok} (h : t.ty ≠ .sym .rightAngle) : follow (o.spell ++ t :: s) = o.level := by
  cases o <;> simp [Bin.spell, follow, Bin.level, h]

theorem stops_spell {typ : List PTok → Option (List PTok)} (o : Bin) {e : Expr} {t : Tok} {s : List Tok} {p : Nat} (h : t.ty ≠ .sym .rightAngle)
    (hl : o = .lt → Named e → ¬ TypeArgs typ (raw (t :: s))) (hp : o.level < p) : Stops typ p e (o.spell ++ t :: s) := by
  refine ⟨?_, by rw [follow_spell o h]; exact hp, ready_spell hl, ?_⟩
  · have := spell_pos o
    intro e
    have := congrArg List.length e
    simp at this
  · intro u v e
    cases o <;> simp only [Bin.spell, List.cons_append, List.cons.injEq] at e <;> rw [← e.1] <;> simp

/-- C71 for two operators: `a o b o' c` is `(a o b) o' c` unless the second operator binds more tightly. -/
theorem C71_two_operators {typ : List PTok → Option (List PTok)} {o o' : Bin} {a b c : Expr} {ts us vs r : List Tok}
    (ha : Writes typ (.unit a) ts (o.spell ++ (us ++ (o'.spell ++ (vs ++ r))))) (hb : Writes typ (.unit b) us (o'.spell ++ (vs ++ r)))
    (hc : Writes typ (.unit c) vs r) (hr : ∀ e, Stops typ 1 e r)
    (h1 : o = .lt → Named a → ¬ TypeArgs typ (raw (us ++ (o'.spell ++ (vs ++ r)))))
    (h2 : o' = .lt → Named b → ¬ TypeArgs typ (raw (vs ++ r))) :
    parse typ (raw (ts ++ (o.spell ++ (us ++ (o'.spell ++ (vs ++ r)))))) =
      .ok (if o'.level ≤ o.level then .bin o' (.bin o a b) c else .bin o a (.bin o' b c), raw r) := by
  have hstop : ∀ {p : Nat} {e : Expr}, 1 ≤ p → Stops typ p e r := fun {p e} hp =>
    ⟨(hr e).some, by have := (hr e).less; omega, (hr e).angle, (hr e).unary⟩
  have lo : ∀ o : Bin, 1 ≤ o.level := by intro o; cases o <;> decide
  obtain ⟨v, vs', ev, hv⟩ := unit_not_angle hc
  split
  · rename_i hle
    have wb : Writes typ (.whole (o.level + 1) b) us (o'.spell ++ (vs ++ r)) := by
      refine .whole (.unit hb) ?_
      rw [ev, List.cons_append] at h2 ⊢
      exact stops_spell o' hv h2 (by omega)
    have wab : Writes typ (.chain 1 (.bin o a b)) (ts ++ (o.spell ++ us)) (o'.spell ++ (vs ++ r)) :=
      .bin (.unit ha) (lo o) h1 wb
    have w := Writes.whole (.bin wab (lo o') (fun _ hn => by rcases hn with ⟨_, hn⟩ | ⟨_, _, hn⟩ <;> cases hn) (.whole (.unit hc) (hstop (by omega)))) (hr _)
    have := C71_reads_partial w
    simpa using this
  · rename_i hle
    have wbc : Writes typ (.whole (o.level + 1) (.bin o' b c)) (us ++ (o'.spell ++ vs)) r :=
      .whole (.bin (.unit hb) (by omega) h2 (.whole (.unit hc) (hstop (by omega)))) (hstop (by omega))
    have ha' : Writes typ (.chain 1 a) ts (o.spell ++ ((us ++ (o'.spell ++ vs)) ++ r)) := by
      have := Writes.unit (p := 1) ha
      simpa using this
    have w := Writes.whole (.bin ha' (lo o) (by simpa using h1) wbc) (hr _)
    have := C71_reads_partial w
    simpa using this

/-- A parser for types that are single names. -/
def nameTyp : List PTok → Option (List PTok)
  | .tok t :: r => if t.ty = .ident then some r else none
  | _ => none

def name (c : Char) : Tok := ⟨.ident, [c]⟩
def num (c : Char) : Tok := ⟨.int, [c]⟩
def eofTok : Tok := ⟨.eof, []⟩

theorem eof_stops (typ : List PTok → Option (List PTok)) (p : Nat) (hp : 1 ≤ p) (e : Expr) : Stops typ p e [eofTok] :=
  ⟨by simp, by simp [follow, eofTok]; omega, by intro _ t s e; simp only [List.cons.injEq] at e; rw [← e.1]; simp [eofTok],
    by intro t s e; simp only [List.cons.injEq] at e; rw [← e.1]; simp [eofTok]⟩

/-- `a - b - c` is `(a - b) - c`, `a | b * c` is `a | (b * c)`, `a >> b + c` is `a >> (b + c)`. -/
example : parse nameTyp (raw [name 'a', sy .minus, name 'b', sy .minus, name 'c', eofTok]) =
    .ok (.bin .sub (.bin .sub (.ident ['a']) (.ident ['b'])) (.ident ['c']), raw [eofTok]) :=
  C71_two_operators (ts := [name 'a']) (us := [name 'b']) (vs := [name 'c']) (r := [eofTok]) (o := .sub) (o' := .sub)
    .ident .ident .ident (eof_stops _ _ (by omega)) (by intro h; cases h) (by intro h; cases h)

example : parse nameTyp (raw [name 'a', sy .rightAngle, sy .rightAngle, name 'b', sy .plus, name 'c', eofTok]) =
    .ok (.bin .rshift (.ident ['a']) (.bin .add (.ident ['b']) (.ident ['c'])), raw [eofTok]) :=
  C71_two_operators (ts := [name 'a']) (us := [name 'b']) (vs := [name 'c']) (r := [eofTok]) (o := .rshift) (o' := .add)
    .ident .ident .ident (eof_stops _ _ (by omega)) (by intro h; cases h) (by intro h; cases h)

/-- `-a.b * -1 ? c : d`, by the rules. -/
example : Writes nameTyp (.whole 1 (.cond (.bin .mul (.un .neg (.select (.ident ['a']) ['b'])) (.int true ['1'])) (.ident ['c']) (.ident ['d'])))
    [sy .minus, name 'a', sy .dot, name 'b', sy .star, sy .minus, num '1', sy .question, name 'c', sy .colon, name 'd'] [eofTok] := by
  refine .whole (.cond (ts := [sy .minus, name 'a', sy .dot, name 'b', sy .star, sy .minus, num '1']) (us := [name 'c'])
    (vs := [name 'd']) (.bin (ts := [sy .minus, name 'a', sy .dot, name 'b']) (us := [sy .minus, num '1']) (o := .mul)
      (.unit (.un (o := .neg) (ts := [name 'a', sy .dot, name 'b']) ?_ (.whole (.select (ts := [name 'a']) (.unit .ident) (by omega)) ?_)))
      (by decide) (by intro h; cases h) (.whole (.unit .negInt) ?_)) (by omega) ?_ (.whole (.unit .ident) ?_)
    (.whole (.unit .ident) (eof_stops _ _ (by omega) _))) (eof_stops _ _ (by omega) _)
  · intro _ t s e; simp only [List.cons.injEq] at e; rw [← e.1]; simp [name]
  · exact ⟨by simp [Bin.spell], by decide, by intro _ t s e; simp [Bin.spell] at e; rw [← e.1]; simp,
      by intro t s e; simp [Bin.spell] at e; rw [← e.1]; simp⟩
  · exact ⟨by simp, by decide, by intro _ t s e; simp at e; rw [← e.1]; simp, by intro t s e; simp at e; rw [← e.1]; simp⟩
  · refine ⟨?_, ?_, ?_, ?_⟩
    · intro t s e; simp at e; rw [← e.1]; simp [name]
    · intro s e; simp [name] at e
    · intro t s e _; simp at e; rw [← e.2]; intro u v e'; simp at e'; rw [← e'.1]; simp
    · intro t d u s e _ hd _; simp at e; rw [← e.2.1] at hd; simp at hd
  · exact ⟨by simp, by decide, by intro _ t s e; simp at e; rw [← e.1]; simp, by intro t s e; simp at e; rw [← e.1]; simp⟩

/-- C71 (counterexample): `a < b >> 1` is `a < (b >> 1)` by the table, but a name and `>` after the `<` are taken for type
arguments; the assertion after them fails and the compiler aborts. -/
theorem C71_counterexample : parse nameTyp (raw [name 'a', sy .leftAngle, name 'b', sy .rightAngle, sy .rightAngle, num '1', eofTok]) = .crash :=
  rfl

/-- Parentheses around the name do not help; around the shift they do. -/
example : parse nameTyp (raw [sy .leftParen, name 'a', sy .rightParen, sy .leftAngle, name 'b', sy .rightAngle, sy .rightAngle,
    num '1', eofTok]) = .crash := rfl

example : parse nameTyp (raw [name 'a', sy .leftAngle, sy .leftParen, name 'b', sy .rightAngle, sy .rightAngle, num '1', sy .rightParen,
    eofTok]) = .ok (.bin .lt (.ident ['a']) (.bin .rshift (.ident ['b']) (.int false ['1'])), raw [eofTok]) := rfl

/-- C72 (partial): in front of the end of the source the parser gives an expression or reports an error, and always comes to an end,
if no `!` or `~` follows an expression and no `<` after a name looks like the start of type arguments. -/
theorem C72_ends_partial {typ : List PTok → Option (List PTok)} {ts : List Tok} (h : Source typ ts) :
    (∃ e pre t r X, parse typ (raw ts) = .ok (e, X) ∧ ts = pre ++ t :: r ∧ ends t.ty = true ∧ (X = raw r ∨ X = norm (raw r))) ∨
    parse typ (raw ts) = .err ∨ parse typ (raw ts) = .other := by
  have := (all_safe (typ := typ) (2 * ts.length + 2)).1 ts h (by omega) 1 (by omega)
  unfold parse
  rw [raw_length]
  cases hp : prec typ (2 * ts.length + 2) 1 (raw ts) with
  | ok x =>
    rw [hp] at this
    obtain ⟨pre, t, r, h1, h2, _, h3⟩ := this
    exact .inl ⟨x.1, pre, t, r, x.2, rfl, h1, h2, h3⟩
  | err => exact .inr (.inl rfl)
  | other => exact .inr (.inr rfl)
  | crash => rw [hp] at this; exact this.elim
  | endless => rw [hp] at this; exact this.elim

/-- `(a + )` is reported. -/
example : parse nameTyp (raw [sy .leftParen, name 'a', sy .plus, sy .rightParen, eofTok]) = .err := rfl

example : Source nameTyp [sy .leftParen, name 'a', sy .plus, sy .rightParen, eofTok] := by
  refine ⟨⟨[sy .leftParen, name 'a', sy .plus, sy .rightParen], eofTok, rfl, rfl⟩, ?_, ?_⟩
  · intro u a b v e
    have hm : b ∈ [sy .leftParen, name 'a', sy .plus, sy .rightParen, eofTok] := by rw [e]; simp
    intro _
    simp only [List.mem_cons, List.not_mem_nil, or_false] at hm
    rcases hm with rfl | rfl | rfl | rfl | rfl <;> simp [name, eofTok]
  · intro u b a v e _
    have hm : a ∈ [sy .leftParen, name 'a', sy .plus, sy .rightParen, eofTok] := by rw [e]; simp
    simp only [List.mem_cons, List.not_mem_nil, or_false] at hm
    rcases hm with rfl | rfl | rfl | rfl | rfl <;> simp [name, eofTok]

/-- C72 (counterexample): `1 ! 2` and `1 ~ 2` call a null function pointer, whatever comes after the operator. -/
theorem C72_counterexample {typ : List PTok → Option (List PTok)} {s : Sym} (hs : s = .not ∨ s = .tilde) (a b : List Char) (r : List Tok) :
    parse typ (raw (⟨.int, a⟩ :: sy s :: ⟨.int, b⟩ :: r)) = .crash := by
  rcases hs with rfl | rfl <;> rfl

end Nature.Parse
