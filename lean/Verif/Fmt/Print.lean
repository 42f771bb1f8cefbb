import Verif.Fmt.Lemmas
namespace Nature.Fmt

theorem isDigit_iff {c : Byte} : isDigit c = true ↔ 48 ≤ c ∧ c ≤ 57 := by
  simp [isDigit]

/-- What does not start with a digit. -/
def NoDigit (l : List Byte) : Prop := ∀ c, l.head? = some c → ¬ (48 ≤ c ∧ c ≤ 57)

theorem digit_sub : ∀ c : Byte, 48 ≤ c ∧ c ≤ 57 → (c - 48).toNat = c.toNat - 48 := by
  intro c h
  exact UInt8.toNat_sub_of_le _ _ h.1

theorem number_eq : ∀ (l rest : List Byte) (acc : UInt8), (∀ c ∈ l, 48 ≤ c ∧ c ≤ 57) → NoDigit rest →
    ((number acc (l ++ rest)).1.toNat = l.foldl (fun a c => a * 10 + (c.toNat - 48)) acc.toNat % 256) ∧
      (number acc (l ++ rest)).2 = rest := by
  intro l
  induction l with
  | nil =>
    intro rest acc _ hr
    cases rest with
    | nil => exact ⟨by simp [number], rfl⟩
    | cons c t =>
      rw [List.nil_append, number, if_neg (by rw [isDigit_iff]; exact hr c rfl)]
      exact ⟨by simp, rfl⟩
  | cons c l ih =>
    intro rest acc hl hr
    have hc := hl c (by simp)
    rw [List.cons_append, number, if_pos (isDigit_iff.2 hc)]
    obtain ⟨h1, h2⟩ := ih rest (acc * 10 + (c - 48)) (fun d hd => hl d (by simp [hd])) hr
    refine ⟨?_, h2⟩
    rw [h1, List.foldl_cons]
    have key : ∀ (l : List Byte) (a b : Nat), a % 256 = b % 256 →
        l.foldl (fun a c => a * 10 + (c.toNat - 48)) a % 256 = l.foldl (fun a c => a * 10 + (c.toNat - 48)) b % 256 := by
      intro l
      induction l with
      | nil => intro a b h; exact h
      | cons c l ih => intro a b h; rw [List.foldl_cons, List.foldl_cons]; exact ih _ _ (by omega)
    apply key
    rw [UInt8.toNat_add, UInt8.toNat_mul, digit_sub c hc]
    show ((acc.toNat * 10) % 256 + (c.toNat - 48)) % 256 % 256 = _
    omega

theorem noDigit_cons {c : Byte} {t : List Byte} (h : ¬ (48 ≤ c ∧ c ≤ 57)) : NoDigit (c :: t) := by
  intro d hd
  rw [List.head?_cons] at hd
  rw [← Option.some.inj hd]; exact h

/-- The part of a directive after its width. -/
def tailText (prec : Option (List Byte)) (verb : Byte) (rest : List Byte) : List Byte :=
  precText prec ++ verb :: rest

theorem tail_ok {prec : Option (List Byte)} {verb : Byte} {rest : List Byte} {fill : Byte} {w : UInt8}
    (hp : ∀ p, prec = some p → ∀ c ∈ p, 48 ≤ c ∧ c ≤ 57) (hv : ¬ (48 ≤ verb ∧ verb ≤ 57)) (h46 : verb ≠ 46) :
    directiveTail fill w (tailText prec verb rest) =
      some ⟨fill, w.toNat, precOf prec, verb, rest⟩ := by
  cases prec with
  | none => show (if verb = 46 then _ else _) = _; rw [if_neg h46]; rfl
  | some p =>
    obtain ⟨h1, h2⟩ := number_eq p (verb :: rest) 0 (hp p rfl) (noDigit_cons hv)
    have h3 : number 0 (p ++ verb :: rest) = ((number 0 (p ++ verb :: rest)).1, verb :: rest) := Prod.ext rfl h2
    show directiveTail fill w (46 :: (p ++ verb :: rest)) = _
    rw [directiveTail, if_pos rfl, h3]
    dsimp only
    rw [h1]; rfl

theorem tail_noDigit {prec : Option (List Byte)} {verb : Byte} {rest : List Byte} (hv : ¬ (48 ≤ verb ∧ verb ≤ 57)) :
    NoDigit (tailText prec verb rest) := by
  cases prec with
  | none => exact noDigit_cons hv
  | some p => exact noDigit_cons (by decide)

theorem directive_ok {zero : Bool} {width : List Byte} {prec : Option (List Byte)} {verb : Byte} {rest : List Byte}
    (h : (Piece.dir zero width prec verb).OK) :
    directive ((if zero then [48] else []) ++ width ++ tailText prec verb rest) =
      some ⟨if zero then 48 else 32, decimalOf width % 256, precOf prec, verb,
        rest⟩ := by
  obtain ⟨hw, hz, hp, hv, _, h46⟩ := h
  obtain ⟨n1, n2⟩ := number_eq width (tailText prec verb rest) 0 hw (tail_noDigit hv)
  cases zero with
  | true =>
    show directive (48 :: (width ++ tailText prec verb rest)) = _
    rw [directive, if_pos rfl, n2, tail_ok hp hv h46, n1]; rfl
  | false =>
    show directive (width ++ tailText prec verb rest) = _
    have hne : ∃ c t, width ++ tailText prec verb rest = c :: t ∧ c ≠ 48 := by
      cases width with
      | nil =>
        cases prec with
        | none => exact ⟨verb, rest, rfl, fun e => hv (by rw [e]; decide)⟩
        | some p => exact ⟨46, _, rfl, by decide⟩
      | cons c t => exact ⟨c, _, rfl, fun e => hz rfl (by rw [e]; rfl)⟩
    obtain ⟨c, t, e, hc⟩ := hne
    rw [e, directive, if_neg hc, ← e, n2, tail_ok hp hv h46, n1]; rfl

theorem sprintfGo_ok (F : Floats) : ∀ (ps : List Piece) (args : List Arg) (n : Nat), (∀ p ∈ ps, p.OK) →
    (ps.flatMap Piece.text).length ≤ n → sprintfGo F n (ps.flatMap Piece.text) args = some (expand F ps args) := by
  intro ps
  induction ps with
  | nil =>
    intro args n _ _
    cases n <;> rfl
  | cons p ps ih =>
    intro args n hok hn
    have hp := hok p (by simp)
    have hps : ∀ q ∈ ps, q.OK := fun q hq => hok q (by simp [hq])
    rw [List.flatMap_cons] at hn ⊢
    rw [List.length_append] at hn
    have hlen : ∀ {m} k, 1 ≤ k → k + (ps.flatMap Piece.text).length ≤ m + 1 → (ps.flatMap Piece.text).length ≤ m := by
      intro m k h1 h2; omega
    cases p with
    | lit c =>
      cases n with
      | zero => simp [Piece.text] at hn
      | succ n =>
        show sprintfGo F (n + 1) (c :: ps.flatMap Piece.text) args = _
        rw [sprintfGo]
        rw [if_pos (show c ≠ 37 from hp), ih args n hps (hlen 1 (by decide) hn)]; rfl
    | percent =>
      cases n with
      | zero => simp [Piece.text] at hn
      | succ n =>
        show sprintfGo F (n + 1) (37 :: (37 :: ps.flatMap Piece.text)) args = _
        rw [sprintfGo]
        have hd : directive (37 :: ps.flatMap Piece.text) = some ⟨32, 0, 6, 37, ps.flatMap Piece.text⟩ := rfl
        rw [if_neg (by simp), if_neg (by simp), hd]
        dsimp only
        rw [if_pos rfl, ih args n hps (hlen 2 (by decide) hn)]; rfl
    | dir zero width prec verb =>
      cases n with
      | zero => simp [Piece.text] at hn
      | succ n =>
        have et : (Piece.dir zero width prec verb).text ++ ps.flatMap Piece.text =
            37 :: ((if zero then [48] else []) ++ width ++ tailText prec verb (ps.flatMap Piece.text)) := by
          simp only [Piece.text, tailText, List.cons_append, List.append_assoc, List.nil_append]
        rw [et, sprintfGo]
        have hl : (ps.flatMap Piece.text).length ≤ n := by
          refine hlen _ ?_ hn
          simp [Piece.text]
        rw [if_neg (by simp), if_neg (by
          intro h
          have := congrArg List.length h
          simp [tailText] at this), directive_ok hp]
        dsimp only
        rw [if_neg hp.2.2.2.2.1]
        cases args with
        | nil => dsimp only; rw [ih [] n hps hl]; rfl
        | cons a as =>
          dsimp only
          rw [expand]
          by_cases hv : verb ∈ verbs
          · rw [if_neg (by simpa using hv), if_pos (show verb ∈ ([118, 99, 100, 115, 102, 120, 88] : List Byte) from hv), ih as n hps hl]; rfl
          · rw [if_pos hv, if_neg (show verb ∉ ([118, 99, 100, 115, 102, 120, 88] : List Byte) from hv), ih (a :: as) n hps hl]; rfl

end Nature.Fmt
