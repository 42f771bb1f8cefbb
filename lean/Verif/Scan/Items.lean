/-
One token.
-/
import Verif.Scan.Words
namespace Nature.Scan

/-! ### Spans -/

theorem takeWhile_all {p : Char → Bool} {l r : List Char} (hl : ∀ c ∈ l, p c = true) (hr : ∀ c s, r = c :: s → p c = false) :
    (l ++ r).takeWhile p = l ∧ (l ++ r).dropWhile p = r := by
  have hr' : r.takeWhile p = [] ∧ r.dropWhile p = r := by
    cases r with
    | nil => simp
    | cons c s => simp [hr c s rfl]
  rw [List.takeWhile_append_of_pos hl, List.dropWhile_append_of_pos hl, hr'.1, hr'.2]
  simp

/-! ### Strings -/

theorem shorts_spec : ∀ p ∈ shorts, p.1 ≠ 'x' ∧ escape p.1 = some (Char.ofNat p.2) := by decide +kernel

theorem stringLoop_short {q c v : Char} (hq : q ≠ '`') (hq' : q ≠ '\\') (hx : c ≠ 'x') (he : escape c = some v) (r buf : List Char) :
    stringLoop q ('\\' :: c :: r) buf = stringLoop q r (buf ++ [v]) := by
  rw [stringLoop.eq_def]
  dsimp only
  rw [if_neg (fun e => hq' e.symm), if_neg (fun e => by have := e.2; exact absurd this (by decide)), if_pos ⟨hq, rfl⟩]
  split
  · rename_i e
    simp only [List.cons.injEq] at e
    exact absurd e.1 hx
  · rename_i e
    simp only [List.cons.injEq] at e
    obtain ⟨rfl, rfl⟩ := e
    rw [he]
  · rename_i e
    simp at e

theorem stringLoop_hex {q a b : Char} (hq : q ≠ '`') (hq' : q ≠ '\\') (ha : isHex a = true) (hb : isHex b = true) (r buf : List Char) :
    stringLoop q ('\\' :: 'x' :: a :: b :: r) buf = stringLoop q r (buf ++ [Char.ofNat (hexValue a * 16 + hexValue b)]) := by
  rw [stringLoop.eq_def]
  dsimp only
  rw [if_neg (fun e => hq' e.symm), if_neg (fun e => by have := e.2; exact absurd this (by decide)), if_pos ⟨hq, rfl⟩]
  simp [ha, hb]

theorem stringLoop_elems {q : Char} (hq : q = '"' ∨ q = '\'' ∨ q = '`') (r : List Char) : ∀ (es : List Elem) (buf : List Char),
    (∀ e ∈ es, e.value q ≠ none) → ∃ vs, es.map (Elem.value q) = vs.map some ∧
    stringLoop q (es.flatMap Elem.text ++ q :: r) buf = .ok (buf ++ vs, r) := by
  intro es
  have hq' : q ≠ '\\' := by rcases hq with rfl | rfl | rfl <;> decide
  induction es with
  | nil =>
    intro buf _
    refine ⟨[], rfl, ?_⟩
    simp only [List.flatMap_nil, List.nil_append]
    rw [stringLoop.eq_def]
    simp
  | cons e es ih =>
    intro buf h
    have he := h e (by simp)
    have hes := fun buf => ih buf (fun x hx => h x (by simp [hx]))
    rw [List.flatMap_cons, List.append_assoc]
    cases e with
    | char c =>
      simp only [Elem.value] at he
      split at he
      · exact absurd rfl he
      · rename_i hn
        obtain ⟨vs, h1, h2⟩ := hes (buf ++ [c])
        refine ⟨c :: vs, ?_, ?_⟩
        · simp only [List.map_cons, Elem.value, if_neg hn, h1]
        · simp only [Elem.text, List.cons_append, List.nil_append]
          rw [stringLoop.eq_def]
          dsimp only
          rw [if_neg (fun e => hn (.inl e)), if_neg (fun e => hn (.inr ⟨e.1, .inl e.2⟩)), if_neg (fun e => hn (.inr ⟨e.1, .inr e.2⟩)), h2]
          simp
    | short c =>
      simp only [Elem.value] at he
      split at he
      · exact absurd rfl he
      · rename_i hn
        cases hf : shorts.find? (·.1 == c) with
        | none => rw [hf] at he; simp at he
        | some p =>
          have hc : p.1 = c := by simpa using List.find?_some hf
          obtain ⟨hx, hv⟩ := shorts_spec p (List.mem_of_find?_eq_some hf)
          rw [hc] at hx hv
          obtain ⟨vs, h1, h2⟩ := hes (buf ++ [Char.ofNat p.2])
          refine ⟨Char.ofNat p.2 :: vs, ?_, ?_⟩
          · simp only [List.map_cons, Elem.value, if_neg hn, hf, Option.map_some, h1]
          · simp only [Elem.text, List.cons_append, List.nil_append]
            rw [stringLoop_short hn hq' hx hv, h2]
            simp
    | hex a b =>
      simp only [Elem.value] at he
      split at he
      · exact absurd rfl he
      · rename_i hn
        split at he
        · rename_i x y hx hy
          obtain ⟨a1, a2, _⟩ := hexOf_spec hx
          obtain ⟨b1, b2, _⟩ := hexOf_spec hy
          obtain ⟨vs, h1, h2⟩ := hes (buf ++ [Char.ofNat (x * 16 + y)])
          refine ⟨Char.ofNat (x * 16 + y) :: vs, ?_, ?_⟩
          · simp only [List.map_cons, Elem.value, if_neg hn, hx, hy, h1]
          · simp only [Elem.text, List.cons_append, List.nil_append]
            rw [stringLoop_hex hn hq' a1 b1, a2, b2, h2]
            simp
        · exact absurd rfl he

/-! ### Numbers -/

theorem digit_char : ∀ n, n < 10 → DigitChar (Char.ofNat ('0'.toNat + n)) ∧ (hexOf (Char.ofNat ('0'.toNat + n))).getD 0 = n ∧
    (Char.ofNat ('0'.toNat + n) = '0' → n = 0) := by
  intro n h
  have : ∀ n ∈ List.range 10, ((decide ('0' ≤ Char.ofNat ('0'.toNat + n)) && decide (Char.ofNat ('0'.toNat + n) ≤ '9')) = true) ∧
      (hexOf (Char.ofNat ('0'.toNat + n))).getD 0 = n ∧ (Char.ofNat ('0'.toNat + n) = '0' → n = 0) := by decide +kernel
  have := this n (by simpa using h)
  refine ⟨?_, this.2⟩
  simpa [DigitChar] using this.1

theorem valueOf_append (b : Nat) (u : List Char) (c : Char) : valueOf b (u ++ [c]) = valueOf b u * b + (hexOf c).getD 0 := by
  simp [valueOf, List.foldl_append]

theorem decLoop_spec : ∀ (f n : Nat), n < 10 ^ (f + 1) → IsDecimal n (decLoop (f + 1) n) := by
  intro f
  induction f with
  | zero =>
    intro n hn
    have hn' : n < 10 := by simpa using hn
    rw [decLoop, if_pos hn']
    obtain ⟨h1, h2, h3⟩ := digit_char n hn'
    refine ⟨by simpa using h1, by simpa [valueOf] using h2, ?_⟩
    by_cases h0 : n = 0
    · subst h0; exact .inl (by decide)
    · exact .inr ⟨_, _, rfl, fun e => h0 (h3 e)⟩
  | succ f ih =>
    intro n hn
    rw [decLoop]
    split
    · rename_i hn'
      obtain ⟨h1, h2, h3⟩ := digit_char n hn'
      refine ⟨by simpa using h1, by simpa [valueOf] using h2, ?_⟩
      by_cases h0 : n = 0
      · subst h0; exact .inl (by decide)
      · exact .inr ⟨_, _, rfl, fun e => h0 (h3 e)⟩
    · rename_i hn'
      have hlt : n / 10 < 10 ^ (f + 1) := by
        rw [Nat.div_lt_iff_lt_mul (by decide)]
        rw [Nat.pow_succ] at hn
        exact hn
      obtain ⟨a1, a2, a3⟩ := ih (n / 10) hlt
      obtain ⟨h1, h2, _⟩ := digit_char (n % 10) (Nat.mod_lt _ (by decide))
      refine ⟨?_, ?_, .inr ?_⟩
      · intro c hc
        rcases List.mem_append.mp hc with hc | hc
        · exact a1 c hc
        · simp only [List.mem_singleton] at hc
          rw [hc]; exact h1
      · rw [valueOf_append, a2, h2]
        omega
      · rcases a3 with e | ⟨c, r, e, hc⟩
        · rw [e] at a2
          have : valueOf 10 ['0'] = 0 := by decide
          omega
        · exact ⟨c, r ++ [Char.ofNat ('0'.toNat + n % 10)], by rw [e]; rfl, hc⟩

theorem dec_spec {n : Nat} (h : n < 2 ^ 64) : IsDecimal n (dec n) :=
  decLoop_spec 19 n (Nat.lt_of_lt_of_le h (by decide))

theorem foldl_value (size : Nat) (ds : List Char) (h : ∀ c ∈ ds, ∃ v, hexOf c = some v) (n : Nat) :
    ds.foldl (fun n c => n * size + hexValue c) n = ds.foldl (fun n c => n * size + (hexOf c).getD 0) n := by
  induction ds generalizing n with
  | nil => rfl
  | cons c ds ih =>
    obtain ⟨v, hv⟩ := h c (by simp)
    simp only [List.foldl_cons]
    rw [(hexOf_spec hv).2.1, hv]
    exact ih (fun x hx => h x (by simp [hx])) _

theorem based_spec {b : Base} {ds r : List Char} (h : ∀ c ∈ ds, b.Digit c) (hv : valueOf b.size ds < 2 ^ 64)
    (hr : ∀ c s, r = c :: s → ¬ b.Digit c) :
    based b.test b.size (ds ++ r) = .ok (dec (valueOf b.size ds), r) := by
  obtain ⟨h1, h2⟩ := takeWhile_all (p := b.test) (l := ds) (r := r) (fun c hc => test_iff.mpr (h c hc))
    (fun c s e => by
      cases ht : b.test c with
      | false => rfl
      | true => exact absurd (test_iff.mp ht) (hr c s e))
  unfold based convert
  rw [h1, h2, foldl_value b.size ds (fun c hc => by obtain ⟨v, hv, _⟩ := h c hc; exact ⟨v, hv⟩)]
  have : List.foldl (fun n c => n * b.size + (hexOf c).getD 0) 0 ds = valueOf b.size ds := rfl
  simp [this, hv, Out.bind]

theorem isDecimal_int {n : Nat} {w : List Char} (h : IsDecimal n w) : isFloat w = false := by
  unfold isFloat
  rw [List.any_eq_false]
  intro c hc
  have := h.1 c hc
  simp only [DigitChar, Char.le_def, UInt32.le_iff_toNat_le] at this
  simp only [Bool.or_eq_true, beq_iff_eq, not_or]
  refine ⟨⟨?_, ?_⟩, ?_⟩ <;> rintro rfl <;> revert this <;> decide

/-! The fraction and the exponent -/

theorem fraction_some {f r : List Char} (h0 : f ≠ []) (hf : ∀ c ∈ f, DigitChar c) (hr : ∀ c s, r = c :: s → ¬ DigitChar c) :
    fraction ('.' :: (f ++ r)) = ('.' :: f, r) := by
  obtain ⟨h1, h2⟩ := takeWhile_all (p := isDigit) (l := f) (r := r) (fun c hc => isDigit_iff.mpr (hf c hc))
    (fun c s e => by
      cases ht : isDigit c with
      | false => rfl
      | true => exact absurd (isDigit_iff.mp ht) (hr c s e))
  cases f with
  | nil => exact absurd rfl h0
  | cons c f =>
    rw [List.cons_append] at h1 h2 ⊢
    rw [fraction, if_pos (isDigit_iff.mpr (hf c (by simp))), h1, h2]

theorem fraction_none {r : List Char} (h : ∀ c s, r = '.' :: c :: s → ¬ DigitChar c) : fraction r = ([], r) := by
  unfold fraction
  split
  · rename_i c s
    rw [if_neg (fun e => h c s rfl (isDigit_iff.mp e))]
  · rfl

theorem exponent_none {r : List Char} (h1 : ∀ e c s, r = e :: c :: s → e = 'e' ∨ e = 'E' → ¬ DigitChar c)
    (h2 : ∀ e p c s, r = e :: p :: c :: s → e = 'e' ∨ e = 'E' → p = '+' ∨ p = '-' → ¬ DigitChar c) : exponent r = ([], r) := by
  unfold exponent
  split
  · rename_i e c s
    rw [if_neg (fun x => h1 e c s rfl x.1 (isDigit_iff.mp x.2)), if_neg]
    rintro ⟨x, y, z⟩
    cases s with
    | nil => simp at z
    | cons d s => exact h2 e c d s rfl x y (isDigit_iff.mp (by simpa using z))
  · rfl

theorem exponent_some {e : Char} {s : Option Char} {d r : List Char} (he : e = 'e' ∨ e = 'E') (hs : ∀ y, s = some y → y = '+' ∨ y = '-')
    (h0 : d ≠ []) (hd : ∀ c ∈ d, DigitChar c) (hr : ∀ c s, r = c :: s → ¬ DigitChar c) :
    exponent (e :: (s.toList ++ d) ++ r) = (e :: (s.toList ++ d), r) := by
  obtain ⟨h1, h2⟩ := takeWhile_all (p := isDigit) (l := d) (r := r) (fun c hc => isDigit_iff.mpr (hd c hc))
    (fun c s e => by
      cases ht : isDigit c with
      | false => rfl
      | true => exact absurd (isDigit_iff.mp ht) (hr c s e))
  cases d with
  | nil => exact absurd rfl h0
  | cons c d =>
    have hc : isDigit c = true := isDigit_iff.mpr (hd c (by simp))
    cases s with
    | none =>
      simp only [Option.toList_none, List.nil_append, List.cons_append] at h1 h2 ⊢
      rw [exponent, if_pos ⟨he, hc⟩, h1, h2]
    | some y =>
      simp only [Option.toList_some, List.cons_append, List.nil_append] at h1 h2 ⊢
      have hy := hs y rfl
      have hny : isDigit y = false := by rcases hy with rfl | rfl <;> decide
      rw [exponent, if_neg (fun x => by rw [hny] at x; exact Bool.noConfusion x.2), if_pos ⟨he, hy, by simpa using hc⟩, h1, h2]

theorem digits_digit {ds : List Char} (h : ∀ c ∈ ds, DigitChar c) : isFloat ds = false := by
  unfold isFloat
  rw [List.any_eq_false]
  intro c hc
  have := h c hc
  simp only [DigitChar, Char.le_def, UInt32.le_iff_toNat_le] at this
  simp only [Bool.or_eq_true, beq_iff_eq, not_or]
  refine ⟨⟨?_, ?_⟩, ?_⟩ <;> rintro rfl <;> revert this <;> decide

theorem number_decimal {c : Char} {r : List Char} (h : c = '0' → ∀ d s, r = d :: s → d ≠ 'x' ∧ d ≠ 'o' ∧ d ≠ 'b') :
    number (c :: r) = .ok (decimal (c :: r)) := by
  unfold number
  split
  · rename_i e; simp only [List.cons.injEq] at e; exact absurd rfl (h e.1 _ _ e.2).1
  · rename_i e; simp only [List.cons.injEq] at e; exact absurd rfl (h e.1 _ _ e.2).2.1
  · rename_i e; simp only [List.cons.injEq] at e; exact absurd rfl (h e.1 _ _ e.2).2.2
  · rfl

theorem digit_ne {c d : Char} (h : DigitChar c) (hd : ¬ DigitChar d) : c ≠ d := fun e => hd (e ▸ h)

theorem number_whole {ds r : List Char} (hok : (Lexeme.whole ds).Ok) (hr : (Lexeme.whole ds).EndsBefore r) :
    number (ds ++ r) = .ok (ds, r) := by
  obtain ⟨h0, hd⟩ := hok
  obtain ⟨r1, r2, r3, r4⟩ := hr
  obtain ⟨h1, h2⟩ := takeWhile_all (p := isDigit) (l := ds) (r := r) (fun c hc => isDigit_iff.mpr (hd c hc))
    (fun c s e => by
      cases ht : isDigit c with
      | false => rfl
      | true => exact absurd (isDigit_iff.mp ht) (r1 c s e).1)
  cases ds with
  | nil => exact absurd rfl h0
  | cons c ds =>
    rw [List.cons_append, number_decimal, ← List.cons_append]
    · unfold decimal
      simp only [h1, h2, fraction_none r2, exponent_none r3 r4, List.append_nil]
    · rintro rfl d s e
      cases ds with
      | nil => exact (r1 d s e).2 rfl
      | cons x ds =>
        simp only [List.cons_append, List.cons.injEq] at e
        have := hd x (by simp)
        rw [e.1] at this
        refine ⟨digit_ne this ?_, digit_ne this ?_, digit_ne this ?_⟩ <;> unfold DigitChar <;> decide

theorem number_real {ds r : List Char} {f : Option (List Char)} {e : Option (Char × Option Char × List Char)}
    (hok : (Lexeme.real ds f e).Ok) (hr : (Lexeme.real ds f e).EndsBefore r) :
    number (ds ++ fracText f ++ expText e ++ r) = .ok (ds ++ fracText f ++ expText e, r) := by
  obtain ⟨h0, hd, hfe, hf, he⟩ := hok
  obtain ⟨r1, r2⟩ := hr
  have hdot : ¬ DigitChar '.' := by unfold DigitChar; decide
  have hee : ∀ c, c = 'e' ∨ c = 'E' → ¬ DigitChar c := by
    rintro c (rfl | rfl) <;> unfold DigitChar <;> decide
  -- what follows the digits
  have hx : exponent (expText e ++ r) = (expText e, r) := by
    cases e with
    | none => exact exponent_none (r2 rfl).1 (r2 rfl).2
    | some x =>
      obtain ⟨c, s, d⟩ := x
      obtain ⟨a1, a2, a3, a4⟩ := he c s d rfl
      exact exponent_some a1 a2 a3 a4 r1
  have hne : ∀ c s, expText e ++ r = c :: s → ¬ DigitChar c := by
    intro c s
    cases e with
    | none => exact r1 c s
    | some x =>
      obtain ⟨c', s', d⟩ := x
      intro eq
      simp only [expText, List.cons_append, List.cons.injEq] at eq
      rw [← eq.1]
      exact hee _ (he c' s' d rfl).1
  have hy : fraction (fracText f ++ (expText e ++ r)) = (fracText f, expText e ++ r) := by
    cases f with
    | none =>
      simp only [fracText, List.nil_append]
      refine fraction_none ?_
      intro c s eq
      cases e with
      | none => simp at hfe
      | some x =>
        obtain ⟨c', s', d⟩ := x
        simp only [expText, List.cons_append, List.cons.injEq] at eq
        have := (he c' s' d rfl).1
        rw [eq.1] at this
        exact absurd this (by decide)
    | some x =>
      simp only [fracText, List.cons_append]
      exact fraction_some (hf x rfl).1 (hf x rfl).2 hne
  have hz : ∀ c s, fracText f ++ (expText e ++ r) = c :: s → ¬ DigitChar c := by
    intro c s eq
    cases f with
    | none => exact hne c s eq
    | some x =>
      simp only [fracText, List.cons_append, List.cons.injEq] at eq
      rw [← eq.1]; exact hdot
  obtain ⟨h1, h2⟩ := takeWhile_all (p := isDigit) (l := ds) (r := fracText f ++ (expText e ++ r)) (fun c hc => isDigit_iff.mpr (hd c hc))
    (fun c s e => by
      cases ht : isDigit c with
      | false => rfl
      | true => exact absurd (isDigit_iff.mp ht) (hz c s e))
  rw [List.append_assoc, List.append_assoc]
  cases ds with
  | nil => exact absurd rfl h0
  | cons c ds =>
    rw [List.cons_append, number_decimal, ← List.cons_append]
    · unfold decimal
      simp only [h1, h2, hy, hx, List.append_assoc]
    · rintro rfl d s eq
      cases ds with
      | nil =>
        simp only [List.nil_append] at eq
        cases f with
        | some x =>
          simp only [fracText, List.cons_append, List.cons.injEq] at eq
          rw [← eq.1]; decide
        | none =>
          simp only [fracText, List.nil_append] at eq
          cases e with
          | none => simp at hfe
          | some x =>
            obtain ⟨c', s', d'⟩ := x
            simp only [expText, List.cons_append, List.cons.injEq] at eq
            have := (he c' s' d' rfl).1
            rw [eq.1] at this
            rcases this with rfl | rfl <;> decide
      | cons x ds =>
        simp only [List.cons_append, List.cons.injEq] at eq
        have := hd x (by simp)
        rw [eq.1] at this
        refine ⟨digit_ne this ?_, digit_ne this ?_, digit_ne this ?_⟩ <;> unfold DigitChar <;> decide

theorem real_float {ds : List Char} {f : Option (List Char)} {e : Option (Char × Option Char × List Char)}
    (hok : (Lexeme.real ds f e).Ok) : isFloat (ds ++ fracText f ++ expText e) = true := by
  obtain ⟨_, _, hfe, _, he⟩ := hok
  unfold isFloat
  rw [List.any_eq_true]
  cases f with
  | some x => exact ⟨'.', by simp [fracText], rfl⟩
  | none =>
    cases e with
    | none => simp at hfe
    | some x =>
      obtain ⟨c, s, d⟩ := x
      refine ⟨c, by simp [expText], ?_⟩
      rcases (he c s d rfl).1 with rfl | rfl <;> rfl

/-! ### Items -/

/-- The word is not one of those that are misread. -/
def Lexeme.Plain : Lexeme → Prop
  | .word w => ∀ p ∈ misread, p.1.toList ≠ w
  | _ => True

theorem digit_class {c : Char} (h : DigitChar c) : isAlpha c = false ∧ c ≠ '@' ∧ c ≠ '#' ∧ isDigit c = true := by
  refine ⟨?_, digit_ne h (by unfold DigitChar; decide), digit_ne h (by unfold DigitChar; decide), isDigit_iff.mpr h⟩
  cases ha : isAlpha c with
  | false => rfl
  | true => exact absurd h (isAlpha_iff.mp ha).2

theorem item_digit {prev : Option Ty} {c : Char} {s w r : List Char} (hc : DigitChar c) (h : number (c :: s) = .ok (w, r)) :
    item prev (c :: s) = .ok (⟨if isFloat w then .float else .int, w⟩, r) := by
  obtain ⟨h1, h2, h3, h4⟩ := digit_class hc
  rw [item, if_neg (by simp [h1]), if_neg h2, if_neg h3, if_pos h4, h]
  rfl

theorem sym_class (s : Sym) : ∃ c u, s.text.toList = c :: u ∧ isAlpha c = false ∧ c ≠ '@' ∧ c ≠ '#' ∧ isDigit c = false ∧ isQuote c = false := by
  cases s <;> exact ⟨_, _, rfl, by decide⟩

theorem item_spec {prev : Option Ty} {l : Lexeme} {r : List Char} (hok : l.Ok) (hp : l.Plain) (hr : l.EndsBefore r) :
    ∃ t, l.IsTok prev t ∧ item prev (l.text ++ r) = .ok (t, r) := by
  have words : ∀ w : List Char, (∀ c ∈ w, WordChar c) → (∀ c s, r = c :: s → ¬ WordChar c) →
      (w ++ r).takeWhile isWord = w ∧ (w ++ r).dropWhile isWord = r := fun w h1 h2 =>
    takeWhile_all (fun c hc => isWord_iff.mpr (h1 c hc)) (fun c s e => by
      cases ht : isWord c with
      | false => rfl
      | true => exact absurd (isWord_iff.mp ht) (h2 c s e))
  cases l with
  | word w =>
    obtain ⟨⟨c, s, rfl, hc⟩, hw⟩ := hok
    obtain ⟨h1, h2⟩ := words _ hw hr
    refine ⟨_, rfl, ?_⟩
    simp only [Lexeme.text]
    rw [List.cons_append, item, if_pos (isAlpha_iff.mpr hc), ← List.cons_append, h1, h2]
    dsimp only
    rw [keyword_word hp]
  | macroName w =>
    obtain ⟨h1, h2⟩ := words _ hok hr
    refine ⟨_, rfl, ?_⟩
    simp only [Lexeme.text]
    rw [List.cons_append, item, if_neg (by decide), if_pos rfl, h1, h2]
  | label w =>
    obtain ⟨h1, h2⟩ := words _ hok hr
    refine ⟨_, rfl, ?_⟩
    simp only [Lexeme.text]
    rw [List.cons_append, item, if_neg (by decide), if_neg (by decide), if_pos rfl, h1, h2]
  | whole ds =>
    have := number_whole hok hr
    refine ⟨_, rfl, ?_⟩
    simp only [Lexeme.text]
    obtain ⟨h0, hd⟩ := hok
    cases ds with
    | nil => exact absurd rfl h0
    | cons c ds =>
      rw [List.cons_append] at this ⊢
      rw [item_digit (hd c (by simp)) this, digits_digit hd]
      rfl
  | real ds f e =>
    have := number_real hok hr
    have hf := real_float hok
    refine ⟨_, rfl, ?_⟩
    simp only [Lexeme.text]
    obtain ⟨h0, hd, _⟩ := hok
    cases ds with
    | nil => exact absurd rfl h0
    | cons c ds =>
      simp only [List.cons_append] at this hf ⊢
      rw [item_digit (hd c (by simp)) this, hf]
      rfl
  | based b ds =>
    obtain ⟨hd, hv⟩ := hok
    have hb := based_spec hd hv hr
    have hdec := dec_spec hv
    refine ⟨⟨.int, dec (valueOf b.size ds)⟩, ⟨rfl, hdec⟩, ?_⟩
    have hn : number ('0' :: b.letter :: (ds ++ r)) = .ok (dec (valueOf b.size ds), r) := by
      cases b <;> exact hb
    simp only [Lexeme.text, List.cons_append]
    rw [item_digit (by unfold DigitChar; decide) hn, isDecimal_int hdec]
    rfl
  | str q es =>
    obtain ⟨hq, hes⟩ := hok
    obtain ⟨vs, h1, h2⟩ := stringLoop_elems hq r es [] hes
    refine ⟨⟨.str, vs⟩, ⟨rfl, h1⟩, ?_⟩
    simp only [Lexeme.text, List.cons_append, List.append_assoc, List.nil_append]
    rw [item]
    have : isAlpha q = false ∧ q ≠ '@' ∧ q ≠ '#' ∧ isDigit q = false ∧ isQuote q = true := by
      rcases hq with rfl | rfl | rfl <;> decide
    obtain ⟨c1, c2, c3, c4, c5⟩ := this
    rw [if_neg (by simp [c1]), if_neg c2, if_neg c3, if_neg (by simp [c4]), if_pos c5, h2]
    simp [Out.bind]
  | sym s =>
    have hs := special_text s r hr.1
    have ht := special_take s r
    obtain ⟨c, u, e, c1, c2, c3, c4, c5⟩ := sym_class s
    refine ⟨_, rfl, ?_⟩
    simp only [Lexeme.text]
    rw [e, List.cons_append] at hs ht ⊢
    rw [item, if_neg (by simp [c1]), if_neg c2, if_neg c3, if_neg (by simp [c4]), if_neg (by simp [c5]), hs]
    simp only [ht]
    split <;> rfl

end Nature.Scan
