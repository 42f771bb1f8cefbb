import Verif.Json.Utf8
namespace Nature.Json

theorem hexDigit_iff {c : Byte} {n : Nat} : hexDigit c = some n ↔ HexVal c n := by
  have l1 : (48 : Byte) ≤ c ↔ 48 ≤ c.toNat := UInt8.le_iff_toNat_le
  have l2 : c ≤ (57 : Byte) ↔ c.toNat ≤ 57 := UInt8.le_iff_toNat_le
  have l3 : (97 : Byte) ≤ c ↔ 97 ≤ c.toNat := UInt8.le_iff_toNat_le
  have l4 : c ≤ (102 : Byte) ↔ c.toNat ≤ 102 := UInt8.le_iff_toNat_le
  have l5 : (65 : Byte) ≤ c ↔ 65 ≤ c.toNat := UInt8.le_iff_toNat_le
  have l6 : c ≤ (70 : Byte) ↔ c.toNat ≤ 70 := UInt8.le_iff_toNat_le
  rw [hexDigit, HexVal]
  by_cases h1 : 48 ≤ c ∧ c ≤ 57
  · rw [if_pos h1, UInt8.toNat_sub_of_le _ _ h1.1]
    rw [l1, l2] at *
    have : (48 : Byte).toNat = 48 := rfl
    rw [l3, l4, l5, l6, Option.some.injEq]
    omega
  · rw [if_neg h1]
    by_cases h2 : 97 ≤ c ∧ c ≤ 102
    · rw [if_pos h2, UInt8.toNat_sub_of_le _ _ h2.1]
      rw [l1, l2] at *
      rw [l3, l4] at *
      have : (97 : Byte).toNat = 97 := rfl
      rw [l5, l6, Option.some.injEq]
      omega
    · rw [if_neg h2]
      by_cases h3 : 65 ≤ c ∧ c ≤ 70
      · rw [if_pos h3, UInt8.toNat_sub_of_le _ _ h3.1]
        rw [l1, l2] at *
        rw [l3, l4] at *
        rw [l5, l6] at *
        have : (65 : Byte).toNat = 65 := rfl
        rw [Option.some.injEq]
        omega
      · rw [if_neg h3]
        constructor
        · intro h; cases h
        · rintro (h | h | h)
          · exact absurd ⟨h.1, h.2.1⟩ h1
          · exact absurd ⟨h.1, h.2.1⟩ h2
          · exact absurd ⟨h.1, h.2.1⟩ h3

theorem hexVal_lt {c : Byte} {n : Nat} (h : HexVal c n) : n < 16 := by
  have l2 : c ≤ (57 : Byte) ↔ c.toNat ≤ 57 := UInt8.le_iff_toNat_le
  have l4 : c ≤ (102 : Byte) ↔ c.toNat ≤ 102 := UInt8.le_iff_toNat_le
  have l6 : c ≤ (70 : Byte) ↔ c.toNat ≤ 70 := UInt8.le_iff_toNat_le
  rw [HexVal, l2, l4, l6] at h
  omega

/-- A hexadecimal digit is an ordinary character. -/
theorem hexVal_plain {c : Byte} {n : Nat} (h : HexVal c n) : c ≠ 34 ∧ c ≠ 92 ∧ 48 ≤ c.toNat := by
  have l1 : (48 : Byte) ≤ c ↔ 48 ≤ c.toNat := UInt8.le_iff_toNat_le
  have l2 : c ≤ (57 : Byte) ↔ c.toNat ≤ 57 := UInt8.le_iff_toNat_le
  have l3 : (97 : Byte) ≤ c ↔ 97 ≤ c.toNat := UInt8.le_iff_toNat_le
  have l5 : (65 : Byte) ≤ c ↔ 65 ≤ c.toNat := UInt8.le_iff_toNat_le
  have l6 : c ≤ (70 : Byte) ↔ c.toNat ≤ 70 := UInt8.le_iff_toNat_le
  rw [HexVal, l1, l2, l3, l5, l6] at h
  refine ⟨?_, ?_, by omega⟩
  · rintro rfl
    have : (34 : Byte).toNat = 34 := rfl
    omega
  · rintro rfl
    have : (92 : Byte).toNat = 92 := rfl
    omega

theorem hex4_lt {h : List Byte} {n : Nat} (hh : Hex4 h n) : n < 65536 := by
  obtain ⟨a, b, c, d, na, nb, nc, nd, _, ha, hb, hc, hd, rfl⟩ := hh
  have := hexVal_lt ha
  have := hexVal_lt hb
  have := hexVal_lt hc
  have := hexVal_lt hd
  omega

theorem hex4_mem {h : List Byte} {n : Nat} (hh : Hex4 h n) : ∀ c ∈ h, c ≠ 34 ∧ c ≠ 92 ∧ 48 ≤ c.toNat := by
  obtain ⟨a, b, c, d, na, nb, nc, nd, rfl, ha, hb, hc, hd, rfl⟩ := hh
  intro x hx
  simp only [List.mem_cons, List.not_mem_nil, or_false] at hx
  rcases hx with rfl | rfl | rfl | rfl
  · exact hexVal_plain ha
  · exact hexVal_plain hb
  · exact hexVal_plain hc
  · exact hexVal_plain hd

theorem hex4_complete {h t : List Byte} {n : Nat} (hh : Hex4 h n) : hex4 (h ++ t) = some (n, t) := by
  obtain ⟨a, b, c, d, na, nb, nc, nd, rfl, ha, hb, hc, hd, rfl⟩ := hh
  show ((hexDigit a).bind fun a => (hexDigit b).bind fun b => (hexDigit c).bind fun c => (hexDigit d).bind fun d =>
      some ((((0 * 16 + a) * 16 + b) * 16 + c) * 16 + d, t)) = _
  rw [hexDigit_iff.2 ha, hexDigit_iff.2 hb, hexDigit_iff.2 hc, hexDigit_iff.2 hd]
  simp only [Option.bind_some, Option.some.injEq, Prod.mk.injEq, and_true]
  omega

theorem hex4_sound {s t : List Byte} {n : Nat} (h : hex4 s = some (n, t)) : ∃ h, Hex4 h n ∧ s = h ++ t := by
  match s, h with
  | [], h => cases h
  | [_], h => cases h
  | [_, _], h => cases h
  | [_, _, _], h => cases h
  | a :: b :: c :: d :: u, h =>
    rw [hex4] at h
    obtain ⟨na, ha, h⟩ := Option.bind_eq_some_iff.1 h
    obtain ⟨nb, hb, h⟩ := Option.bind_eq_some_iff.1 h
    obtain ⟨nc, hc, h⟩ := Option.bind_eq_some_iff.1 h
    obtain ⟨nd, hd, h⟩ := Option.bind_eq_some_iff.1 h
    injection h with h
    injection h with h1 h2
    subst h2
    exact ⟨[a, b, c, d], ⟨a, b, c, d, na, nb, nc, nd, rfl, hexDigit_iff.1 ha, hexDigit_iff.1 hb, hexDigit_iff.1 hc,
      hexDigit_iff.1 hd, by omega⟩, rfl⟩

theorem low_complete {h t : List Byte} {n : Nat} (hh : Hex4 h n) (h1 : 0xDC00 ≤ n) (h2 : n ≤ 0xDFFF) :
    lowSurrogate (92 :: 117 :: (h ++ t)) = some (n, t) := by
  rw [lowSurrogate, hex4_complete hh]
  dsimp only
  rw [if_pos ⟨h1, h2⟩]

theorem low_sound {s t : List Byte} {n : Nat} (h : lowSurrogate s = some (n, t)) :
    ∃ h, Hex4 h n ∧ 0xDC00 ≤ n ∧ n ≤ 0xDFFF ∧ s = 92 :: 117 :: (h ++ t) := by
  rw [lowSurrogate.eq_def] at h
  split at h
  · rename_i u
    cases hx : hex4 u with
    | none => rw [hx] at h; cases h
    | some p =>
      obtain ⟨low, u2⟩ := p
      rw [hx] at h
      dsimp only at h
      by_cases hl : low ≥ 0xDC00 ∧ low ≤ 0xDFFF
      · rw [if_pos hl] at h
        injection h with h
        injection h with h3 h4
        subst h3 h4
        obtain ⟨g, hg, rfl⟩ := hex4_sound hx
        exact ⟨g, hg, hl.1, hl.2, rfl⟩
      · rw [if_neg hl] at h; cases h
  · cases h

/-- What is found before a quote lies before it, if it has no quote itself. -/
theorem before_quote : ∀ {x t l r : List Byte}, x ++ t = l ++ 34 :: r → 34 ∉ x → ∃ t', l = x ++ t' ∧ t = t' ++ 34 :: r := by
  intro x
  induction x with
  | nil => intro t l r h _; exact ⟨l, rfl, h⟩
  | cons c x ih =>
    intro t l r h hx
    cases l with
    | nil => injection h with h _; exact absurd (h ▸ List.mem_cons_self) hx
    | cons d l =>
      injection h with h1 h2
      obtain ⟨t', e1, e2⟩ := ih h2 (fun hm => hx (List.mem_cons_of_mem _ hm))
      exact ⟨t', by rw [e1, h1]; rfl, e2⟩

theorem low_none {l r : List Byte} (h : ¬ StartsLow l) : lowSurrogate (l ++ 34 :: r) = none := by
  cases hx : lowSurrogate (l ++ 34 :: r) with
  | none => rfl
  | some p =>
    obtain ⟨n, t⟩ := p
    obtain ⟨g, hg, h1, h2, he⟩ := low_sound hx
    exfalso
    have : (92 :: 117 :: g) ++ t = l ++ 34 :: r := he.symm
    obtain ⟨t', e, _⟩ := before_quote this (by
      intro hm
      simp only [List.mem_cons] at hm
      rcases hm with hm | hm | hm
      · exact absurd hm (by decide)
      · exact absurd hm (by decide)
      · exact (hex4_mem hg 34 hm).1 rfl)
    exact h ⟨g, n, t', hg, h1, h2, e⟩

theorem not_starts {l r : List Byte} (h : lowSurrogate (l ++ 34 :: r) = none) : ¬ StartsLow l := by
  rintro ⟨g, n, t, hg, h1, h2, rfl⟩
  have := low_complete (t := t ++ 34 :: r) hg h1 h2
  rw [show (92 : Byte) :: 117 :: (g ++ t) ++ 34 :: r = 92 :: 117 :: (g ++ (t ++ 34 :: r)) by simp] at h
  rw [h] at this
  cases this

theorem utf8_no_quote {cp : Nat} (h : Scalar cp) (h80 : 0x80 ≤ cp) : 34 ∉ utf8 cp := by
  obtain ⟨c, t, e, h1, h2⟩ := utf8_high h h80
  rw [e]
  intro hm
  have e34 : (34 : Byte).toNat = 34 := rfl
  rcases List.mem_cons.1 hm with rfl | hm
  · omega
  · have := h2 _ hm; omega

theorem bad_len {c : Byte} {l r : List Byte} (hc : 0x80 ≤ c) (h : ∀ cp t, Scalar cp → c :: l ≠ utf8 cp ++ t) :
    utf8Len (c :: (l ++ 34 :: r)) = 0 := by
  cases Nat.decEq (utf8Len (c :: (l ++ 34 :: r))) 0 with
  | isTrue h0 => exact h0
  | isFalse h0 =>
    obtain ⟨cp, t, h1, h2, he⟩ := utf8Len_dec h0
    obtain ⟨t', e, _⟩ := before_quote (l := c :: l) (r := r) he.symm (utf8_no_quote h1 h2)
    exact absurd e (h cp t' h1)

theorem len_bad {c : Byte} {l r : List Byte} (hc : 0x80 ≤ c) (h : utf8Len (c :: (l ++ 34 :: r)) = 0) :
    ∀ cp t, Scalar cp → c :: l ≠ utf8 cp ++ t := by
  intro cp t hs he
  have hc : 0x80 ≤ c.toNat := UInt8.le_iff_toNat_le.1 hc
  have h80 : 0x80 ≤ cp := by
    cases Nat.lt_or_ge cp 0x80 with
    | inr h => exact h
    | inl h =>
      rw [utf8_low h] at he
      injection he with he _
      rw [he, toNat_ofNat_lt (by omega)] at hc
      omega
  have := utf8Len_enc hs h80 (t ++ 34 :: r)
  rw [← List.append_assoc, ← he, List.cons_append, h] at this
  exact this.2 this.1.symm

theorem escape_iff {e c : Byte} : escape e = some c ↔
    (e, c) ∈ ([(34, 34), (92, 92), (47, 47), (98, 8), (102, 12), (110, 10), (114, 13), (116, 9)] : List (Byte × Byte)) := by
  simp only [List.mem_cons, List.not_mem_nil, or_false, Prod.mk.injEq]
  rw [escape]
  constructor
  · intro h
    repeat' split at h
    all_goals first
      | (cases h; done)
      | (injection h with h; subst h; simp_all)
  · rintro (⟨rfl, rfl⟩ | ⟨rfl, rfl⟩ | ⟨rfl, rfl⟩ | ⟨rfl, rfl⟩ | ⟨rfl, rfl⟩ | ⟨rfl, rfl⟩ | ⟨rfl, rfl⟩ | ⟨rfl, rfl⟩) <;> rfl

theorem escape_not_u {e c : Byte} (h : escape e = some c) : e ≠ 117 := by
  rintro rfl; cases h

theorem map_some_iff {α β : Type} {f : α → β} {o : Option α} {b : β} : o.map f = some b ↔ ∃ a, o = some a ∧ f a = b := by
  cases o with
  | none => simp
  | some a => simp

theorem stringBody_sound : ∀ (n : Nat) (s o r : List Byte), stringBody n s = some (o, r) → ∃ l, Chars l o ∧ s = l ++ 34 :: r := by
  intro n
  induction n with
  | zero => intro s o r h; cases h
  | succ n ih =>
    intro s o r h
    cases s with
    | nil => cases h
    | cons c t =>
      rw [stringBody.eq_def] at h
      dsimp only at h
      by_cases h34 : c = 34
      · rw [if_pos h34] at h
        injection h with h; injection h with h1 h2
        subst h1 h2 h34
        exact ⟨[], .nil, rfl⟩
      rw [if_neg h34] at h
      by_cases h92 : c = 92
      · rw [if_pos h92] at h
        subst h92
        cases t with
        | nil => cases h
        | cons e t =>
          dsimp only at h
          by_cases hu : e = 117
          · rw [if_pos hu] at h
            subst hu
            cases hx : hex4 t with
            | none => rw [hx] at h; cases h
            | some p =>
              obtain ⟨cp, t2⟩ := p
              rw [hx] at h
              dsimp only at h
              obtain ⟨g, hg, rfl⟩ := hex4_sound hx
              have hlt := hex4_lt hg
              rw [surrogates] at h
              by_cases hhi : cp ≥ 0xD800 ∧ cp ≤ 0xDBFF
              · rw [if_pos hhi] at h
                cases hl : lowSurrogate t2 with
                | none =>
                  rw [hl] at h
                  obtain ⟨⟨o2, r2⟩, h1, h2⟩ := map_some_iff.1 h
                  injection h2 with h2 h3
                  dsimp only at h2 h3 h1
                  subst h2 h3
                  obtain ⟨l, hc, rfl⟩ := ih _ _ _ h1
                  rw [appendUtf8_eq fffd_scalar]
                  exact ⟨_, .lone g cp hg hhi.1 (by omega) (fun hh => not_starts hl hh.2) hc, by simp⟩
                | some q =>
                  obtain ⟨low, t3⟩ := q
                  rw [hl] at h
                  obtain ⟨g2, hg2, hlo1, hlo2, rfl⟩ := low_sound hl
                  obtain ⟨⟨o2, r2⟩, h1, h2⟩ := map_some_iff.1 h
                  injection h2 with h2 h3
                  dsimp only at h2 h3 h1
                  subst h2 h3
                  obtain ⟨l, hc, rfl⟩ := ih _ _ _ h1
                  rw [Nat.shiftLeft_eq, appendUtf8_eq ⟨by omega, by omega⟩]
                  exact ⟨_, .pair g g2 cp low hg hhi.1 hhi.2 hg2 hlo1 hlo2 hc, by simp⟩
              · rw [if_neg hhi] at h
                by_cases hlow : cp ≥ 0xDC00 ∧ cp ≤ 0xDFFF
                · rw [if_pos hlow] at h
                  obtain ⟨⟨o2, r2⟩, h1, h2⟩ := map_some_iff.1 h
                  injection h2 with h2 h3
                  dsimp only at h2 h3 h1
                  subst h2 h3
                  obtain ⟨l, hc, rfl⟩ := ih _ _ _ h1
                  rw [appendUtf8_eq fffd_scalar]
                  exact ⟨_, .lone g cp hg (by omega) hlow.2 (fun hh => by omega) hc, by simp⟩
                · rw [if_neg hlow] at h
                  obtain ⟨⟨o2, r2⟩, h1, h2⟩ := map_some_iff.1 h
                  injection h2 with h2 h3
                  dsimp only at h2 h3 h1
                  subst h2 h3
                  obtain ⟨l, hc, rfl⟩ := ih _ _ _ h1
                  rw [appendUtf8_eq ⟨by omega, by omega⟩]
                  exact ⟨_, .unicode g cp hg (by omega) hc, by simp⟩
          · rw [if_neg hu] at h
            cases he : escape e with
            | none => rw [he] at h; cases h
            | some b =>
              rw [he] at h
              obtain ⟨⟨o2, r2⟩, h1, h2⟩ := map_some_iff.1 h
              injection h2 with h2 h3
              dsimp only at h2 h3 h1
              subst h2 h3
              obtain ⟨l, hc, rfl⟩ := ih _ _ _ h1
              exact ⟨_, .escape e b (escape_iff.1 he) hc, rfl⟩
      · rw [if_neg h92] at h
        by_cases h20 : c < 0x20
        · rw [if_pos h20] at h; cases h
        rw [if_neg h20] at h
        by_cases h80 : c < 0x80
        · rw [if_pos h80] at h
          obtain ⟨⟨o2, r2⟩, h1, h2⟩ := map_some_iff.1 h
          injection h2 with h2 h3
          dsimp only at h2 h3 h1
          subst h2 h3
          obtain ⟨l, hc, rfl⟩ := ih _ _ _ h1
          exact ⟨_, .plain c (UInt8.not_lt.1 h20) h80 h34 h92 hc, rfl⟩
        · rw [if_neg h80] at h
          have hc80 : 0x80 ≤ c := UInt8.not_lt.1 h80
          by_cases hk : utf8Len (c :: t) = 0
          · rw [if_pos hk] at h
            obtain ⟨⟨o2, r2⟩, h1, h2⟩ := map_some_iff.1 h
            injection h2 with h2 h3
            dsimp only at h2 h3 h1
            subst h2 h3
            obtain ⟨l, hc, rfl⟩ := ih _ _ _ h1
            refine ⟨_, .bad c hc80 (len_bad hc80 hk) hc, rfl⟩
          · rw [if_neg hk] at h
            obtain ⟨cp, u, hs, hcp, he⟩ := utf8Len_dec hk
            have hl := (utf8Len_enc hs hcp u).1
            rw [← he] at hl
            rw [hl, he] at h
            rw [List.drop_left, List.take_left] at h
            obtain ⟨⟨o2, r2⟩, h1, h2⟩ := map_some_iff.1 h
            injection h2 with h2 h3
            dsimp only at h2 h3 h1
            subst h2 h3
            obtain ⟨l, hc, rfl⟩ := ih _ _ _ h1
            exact ⟨_, .rune cp hs hcp hc, by rw [he]; simp⟩

theorem stringBody_complete {l o : List Byte} (h : Chars l o) (r : List Byte) : ∀ n, l.length < n →
    stringBody n (l ++ 34 :: r) = some (o, r) := by
  induction h with
  | nil =>
    intro n hn
    obtain ⟨n, rfl⟩ : ∃ k, n = k + 1 := ⟨n - 1, by omega⟩
    rfl
  | @plain l o c h1 h2 h3 h4 _ ih =>
    intro n hn
    rw [List.length_cons] at hn
    obtain ⟨n, rfl⟩ : ∃ k, n = k + 1 := ⟨n - 1, by omega⟩
    rw [List.cons_append, stringBody.eq_def]
    dsimp only
    rw [if_neg h3, if_neg h4, if_neg (UInt8.not_lt.2 h1), if_pos h2, ih n (by omega)]
    rfl
  | @escape l o e c h1 _ ih =>
    intro n hn
    simp only [List.length_cons] at hn
    obtain ⟨n, rfl⟩ : ∃ k, n = k + 1 := ⟨n - 1, by omega⟩
    have he := escape_iff.2 h1
    rw [List.cons_append, List.cons_append, stringBody.eq_def]
    dsimp only
    rw [if_neg (by decide), if_pos rfl, if_neg (escape_not_u he), he, ih n (by omega)]
    rfl
  | @unicode l o g m h1 h2 _ ih =>
    intro n hn
    simp only [List.length_cons, List.length_append] at hn
    obtain ⟨n, rfl⟩ : ∃ k, n = k + 1 := ⟨n - 1, by omega⟩
    have hlt := hex4_lt h1
    rw [show (92 : Byte) :: 117 :: (g ++ l) ++ 34 :: r = 92 :: 117 :: (g ++ (l ++ 34 :: r)) by simp, stringBody.eq_def]
    dsimp only
    rw [if_neg (by decide), if_pos rfl, if_pos rfl, hex4_complete h1]
    dsimp only
    rw [surrogates, if_neg (by omega), if_neg (by omega), ih n (by omega)]
    rw [← appendUtf8_eq ⟨by omega, by omega⟩]
    rfl
  | @pair l o g1 g2 hi lo h1 h2 h3 h4 h5 h6 _ ih =>
    intro n hn
    simp only [List.length_cons, List.length_append] at hn
    obtain ⟨n, rfl⟩ : ∃ k, n = k + 1 := ⟨n - 1, by omega⟩
    rw [show (92 : Byte) :: 117 :: (g1 ++ 92 :: 117 :: (g2 ++ l)) ++ 34 :: r =
      92 :: 117 :: (g1 ++ 92 :: 117 :: (g2 ++ (l ++ 34 :: r))) by simp, stringBody.eq_def]
    dsimp only
    rw [if_neg (by decide), if_pos rfl, if_pos rfl, hex4_complete h1]
    dsimp only
    rw [surrogates, if_pos ⟨h2, h3⟩, low_complete h4 h5 h6]
    dsimp only
    rw [ih n (by omega), Nat.shiftLeft_eq, appendUtf8_eq ⟨by omega, by omega⟩]
    rfl
  | @rune l o cp h1 h2 _ ih =>
    intro n hn
    have hl := utf8Len_enc h1 h2 (l ++ 34 :: r)
    rw [← List.append_assoc] at hl
    obtain ⟨c, t, e, hc, _⟩ := utf8_high h1 h2
    have hnp : ¬ c < 0x80 := fun hh => by
      have := UInt8.lt_iff_toNat_lt.1 hh
      have e80 : (0x80 : Byte).toNat = 0x80 := rfl
      omega
    have h20 : ¬ c < 0x20 := fun hh => by
      have := UInt8.lt_iff_toNat_lt.1 hh
      have e80 : (0x20 : Byte).toNat = 0x20 := rfl
      omega
    have h34 : c ≠ 34 := by rintro rfl; exact absurd hc (by decide)
    have h92 : c ≠ 92 := by rintro rfl; exact absurd hc (by decide)
    have hlen : (utf8 cp ++ l).length = (utf8 cp).length + l.length := List.length_append
    have hpos : 0 < (utf8 cp).length := by rw [e]; simp
    obtain ⟨n, rfl⟩ : ∃ k, n = k + 1 := ⟨n - 1, by omega⟩
    have e2 : utf8 cp ++ l ++ 34 :: r = c :: (t ++ (l ++ 34 :: r)) := by rw [e]; simp
    rw [stringBody.eq_def]
    have : ∀ s : List Byte, s = c :: (t ++ (l ++ 34 :: r)) → utf8Len s = (utf8 cp).length →
        s.drop (utf8 cp).length = l ++ 34 :: r → s.take (utf8 cp).length = utf8 cp →
        (match n + 1, s with
        | 0, _ => none
        | _ + 1, [] => none
        | n + 1, c :: t =>
          if c = 34 then some ([], t)
          else if c = 92 then
            match t with
            | [] => none
            | e :: t =>
              if e = 117 then
                match hex4 t with
                | none => none
                | some (cp, t) =>
                  let (cp, t) := surrogates cp t
                  (stringBody n t).map fun p => (appendUtf8 cp ++ p.1, p.2)
              else
                match escape e with
                | none => none
                | some b => (stringBody n t).map fun p => (b :: p.1, p.2)
          else if c < 0x20 then none
          else if c < 0x80 then (stringBody n t).map fun p => (c :: p.1, p.2)
          else
            let k := utf8Len (c :: t)
            if k = 0 then (stringBody n t).map fun p => (0xEF :: 0xBF :: 0xBD :: p.1, p.2)
            else (stringBody n ((c :: t).drop k)).map fun p => ((c :: t).take k ++ p.1, p.2)) = some (utf8 cp ++ o, r) := by
      rintro s rfl k1 k2 k3
      dsimp only
      rw [if_neg h34, if_neg h92, if_neg h20, if_neg hnp, k1, if_neg (by omega), k2, k3, ih n (by omega)]
      rfl
    refine this _ e2 hl.1 ?_ ?_
    · rw [List.append_assoc, List.drop_left]
    · rw [List.append_assoc, List.take_left]
  | @lone l o g m h1 h2 h3 h4 _ ih =>
    intro n hn
    simp only [List.length_cons, List.length_append] at hn
    obtain ⟨n, rfl⟩ : ∃ k, n = k + 1 := ⟨n - 1, by omega⟩
    rw [show (92 : Byte) :: 117 :: (g ++ l) ++ 34 :: r = 92 :: 117 :: (g ++ (l ++ 34 :: r)) by simp, stringBody.eq_def]
    dsimp only
    rw [if_neg (by decide), if_pos rfl, if_pos rfl, hex4_complete h1]
    dsimp only
    have hsur : surrogates m (l ++ 34 :: r) = (0xFFFD, l ++ 34 :: r) := by
      rw [surrogates]
      by_cases hh : m ≥ 0xD800 ∧ m ≤ 0xDBFF
      · rw [if_pos hh, low_none (fun hs => h4 ⟨hh.2, hs⟩)]
      · rw [if_neg hh, if_pos (by omega)]
    rw [hsur]
    dsimp only
    rw [ih n (by omega), appendUtf8_eq fffd_scalar]
    rfl
  | @bad l o c h1 h2 _ ih =>
    intro n hn
    rw [List.length_cons] at hn
    obtain ⟨n, rfl⟩ : ∃ k, n = k + 1 := ⟨n - 1, by omega⟩
    have hc : 0x80 ≤ c.toNat := UInt8.le_iff_toNat_le.1 h1
    have h20 : ¬ c < 0x20 := fun hh => by
      have := UInt8.lt_iff_toNat_lt.1 hh
      have e80 : (0x20 : Byte).toNat = 0x20 := rfl
      omega
    have h34 : c ≠ 34 := by rintro rfl; exact absurd hc (by decide)
    have h92 : c ≠ 92 := by rintro rfl; exact absurd hc (by decide)
    rw [List.cons_append, stringBody.eq_def]
    dsimp only
    rw [if_neg h34, if_neg h92, if_neg h20, if_neg (UInt8.not_lt.2 h1), bad_len h1 h2, if_pos rfl, ih n (by omega)]
    rfl

end Nature.Json
