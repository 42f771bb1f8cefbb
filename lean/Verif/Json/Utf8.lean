import Verif.Json.Spec
namespace Nature.Json

theorem ofNat_eq {n : Nat} {c : Byte} (h : n = c.toNat) : UInt8.ofNat n = c := by
  subst h; exact UInt8.ofNat_toNat

theorem toNat_ofNat_lt {n : Nat} (h : n < 256) : (UInt8.ofNat n).toNat = n := by
  simp [UInt8.toNat_ofNat', Nat.mod_eq_of_lt h]

theorem or_c0 {x : Nat} (h : x < 64) : 0xC0 ||| x = 0xC0 + x := by
  have := Nat.shiftLeft_add_eq_or_of_lt (i := 6) (b := x) h 3
  exact this.symm

theorem or_e0 {x : Nat} (h : x < 32) : 0xE0 ||| x = 0xE0 + x := by
  have := Nat.shiftLeft_add_eq_or_of_lt (i := 5) (b := x) h 7
  exact this.symm

theorem or_f0 {x : Nat} (h : x < 16) : 0xF0 ||| x = 0xF0 + x := by
  have := Nat.shiftLeft_add_eq_or_of_lt (i := 4) (b := x) h 15
  exact this.symm

theorem or_80 {x : Nat} (h : x < 64) : 0x80 ||| x = 0x80 + x := by
  have := Nat.shiftLeft_add_eq_or_of_lt (i := 7) (b := x) (by omega) 1
  exact this.symm

theorem and_3f (x : Nat) : x &&& 0x3F = x % 64 := Nat.and_two_pow_sub_one_eq_mod x 6

theorem appendUtf8_eq {cp : Nat} (h : Scalar cp) : appendUtf8 cp = utf8 cp := by
  obtain ⟨h1, h2⟩ := h
  rw [appendUtf8, if_neg (show ¬ (cp > 0x10FFFF ∨ (cp ≥ 0xD800 ∧ cp ≤ 0xDFFF)) by omega)]
  simp only [Nat.shiftRight_eq_div_pow, and_3f]
  rw [utf8]
  by_cases a1 : cp ≤ 0x7F
  · rw [if_pos a1, if_pos (show cp < 0x80 by omega)]
  · rw [if_neg a1, if_neg (show ¬ cp < 0x80 by omega)]
    by_cases a2 : cp ≤ 0x7FF
    · rw [if_pos a2, if_pos (show cp < 0x800 by omega), or_c0 (by omega), or_80 (by omega)]
    · rw [if_neg a2, if_neg (show ¬ cp < 0x800 by omega)]
      by_cases a3 : cp ≤ 0xFFFF
      · rw [if_pos a3, if_pos (show cp < 0x10000 by omega), or_e0 (by omega), or_80 (by omega), or_80 (by omega)]
      · rw [if_neg a3, if_neg (show ¬ cp < 0x10000 by omega), or_f0 (by omega), or_80 (by omega), or_80 (by omega), or_80 (by omega)]

/-- A byte and its number, for comparisons with literals. -/
theorem le_lit {n : Nat} (h : n < 256) (c : Byte) : UInt8.ofNat n ≤ c ↔ n ≤ c.toNat := by
  rw [UInt8.le_iff_toNat_le, toNat_ofNat_lt h]

theorem lit_le {n : Nat} (h : n < 256) (c : Byte) : c ≤ UInt8.ofNat n ↔ c.toNat ≤ n := by
  rw [UInt8.le_iff_toNat_le, toNat_ofNat_lt h]

theorem isCont_iff (c : Byte) : isCont c = true ↔ 0x80 ≤ c.toNat ∧ c.toNat ≤ 0xBF := by
  have e1 : c < 0x80 ↔ c.toNat < 0x80 := UInt8.lt_iff_toNat_lt
  have e2 : c > 0xBF ↔ c.toNat > 0xBF := UInt8.lt_iff_toNat_lt
  simp only [isCont, Bool.not_eq_true', Bool.or_eq_false_iff, decide_eq_false_iff_not, e1, e2]
  omega

theorem leadLen_eq (c : Byte) : leadLen c = if 0xC2 ≤ c.toNat ∧ c.toNat ≤ 0xDF then 2
    else if 0xE0 ≤ c.toNat ∧ c.toNat ≤ 0xEF then 3 else if 0xF0 ≤ c.toNat ∧ c.toNat ≤ 0xF4 then 4 else 0 := rfl

theorem badSecond_iff (a b : Byte) : badSecond a b = true ↔ (a.toNat = 0xE0 ∧ b.toNat < 0xA0) ∨ (a.toNat = 0xED ∧ b.toNat > 0x9F) ∨
    (a.toNat = 0xF0 ∧ b.toNat < 0x90) ∨ (a.toNat = 0xF4 ∧ b.toNat > 0x8F) := by
  have e : ∀ n : Byte, (a == n) = true ↔ a.toNat = n.toNat := fun n => by
    rw [beq_iff_eq, UInt8.toNat_inj]
  simp only [badSecond, Bool.or_eq_true, Bool.and_eq_true, decide_eq_true_eq, e, UInt8.lt_iff_toNat_lt, gt_iff_lt]
  simp only [UInt8.reduceToNat, or_assoc]

theorem utf8Len_cons (a b : Byte) (t : List Byte) : utf8Len (a :: b :: t) =
    if leadLen a = 0 then 0 else if leadLen a > t.length + 2 then 0
    else if (((b :: t).take (leadLen a - 1)).all isCont) = false then 0 else if badSecond a b then 0 else leadLen a := rfl

theorem utf8Len_one (a : Byte) : utf8Len [a] = 0 := by
  rw [utf8Len, leadLen_eq]
  split
  · rfl
  · split
    · rfl
    · split
      · rfl
      · rfl

/-- An encoded scalar value is recognised. -/
theorem utf8Len_enc {cp : Nat} (h : Scalar cp) (h80 : 0x80 ≤ cp) (t : List Byte) :
    utf8Len (utf8 cp ++ t) = (utf8 cp).length ∧ (utf8 cp).length ≠ 0 := by
  obtain ⟨h1, h2⟩ := h
  rw [utf8, if_neg (by omega)]
  by_cases a2 : cp < 0x800
  · rw [if_pos a2]
    have e1 := toNat_ofNat_lt (show 0xC0 + cp / 64 < 256 by omega)
    have e2 := toNat_ofNat_lt (show 0x80 + cp % 64 < 256 by omega)
    generalize UInt8.ofNat (0xC0 + cp / 64) = x at *
    generalize UInt8.ofNat (0x80 + cp % 64) = y at *
    refine ⟨?_, by simp⟩
    have hl : leadLen x = 2 := by rw [leadLen_eq, if_pos (by omega)]
    have hc : isCont y = true := (isCont_iff y).2 (by omega)
    have hb : badSecond x y ≠ true := by rw [Ne, badSecond_iff]; omega
    rw [List.cons_append, List.cons_append, utf8Len_cons, hl, if_neg (by decide), if_neg (by simp), if_neg, if_neg hb]
    · rfl
    · simp [hc]
  · rw [if_neg a2]
    by_cases a3 : cp < 0x10000
    · rw [if_pos a3]
      have e1 := toNat_ofNat_lt (show 0xE0 + cp / 4096 < 256 by omega)
      have e2 := toNat_ofNat_lt (show 0x80 + cp / 64 % 64 < 256 by omega)
      have e3 := toNat_ofNat_lt (show 0x80 + cp % 64 < 256 by omega)
      generalize UInt8.ofNat (0xE0 + cp / 4096) = x at *
      generalize UInt8.ofNat (0x80 + cp / 64 % 64) = y at *
      generalize UInt8.ofNat (0x80 + cp % 64) = z at *
      refine ⟨?_, by simp⟩
      have hl : leadLen x = 3 := by rw [leadLen_eq, if_neg (by omega), if_pos (by omega)]
      have hc : isCont y = true := (isCont_iff y).2 (by omega)
      have hd : isCont z = true := (isCont_iff z).2 (by omega)
      have hb : badSecond x y ≠ true := by rw [Ne, badSecond_iff]; omega
      rw [List.cons_append, List.cons_append, utf8Len_cons, hl, if_neg (by decide), if_neg (by simp), if_neg, if_neg hb]
      · rfl
      · simp [hc, hd]
    · rw [if_neg a3]
      have e1 := toNat_ofNat_lt (show 0xF0 + cp / 262144 < 256 by omega)
      have e2 := toNat_ofNat_lt (show 0x80 + cp / 4096 % 64 < 256 by omega)
      have e3 := toNat_ofNat_lt (show 0x80 + cp / 64 % 64 < 256 by omega)
      have e4 := toNat_ofNat_lt (show 0x80 + cp % 64 < 256 by omega)
      generalize UInt8.ofNat (0xF0 + cp / 262144) = x at *
      generalize UInt8.ofNat (0x80 + cp / 4096 % 64) = y at *
      generalize UInt8.ofNat (0x80 + cp / 64 % 64) = z at *
      generalize UInt8.ofNat (0x80 + cp % 64) = w at *
      refine ⟨?_, by simp⟩
      have hl : leadLen x = 4 := by rw [leadLen_eq, if_neg (by omega), if_neg (by omega), if_pos (by omega)]
      have hc : isCont y = true := (isCont_iff y).2 (by omega)
      have hd : isCont z = true := (isCont_iff z).2 (by omega)
      have he : isCont w = true := (isCont_iff w).2 (by omega)
      have hb : badSecond x y ≠ true := by rw [Ne, badSecond_iff]; omega
      rw [List.cons_append, List.cons_append, utf8Len_cons, hl, if_neg (by decide), if_neg (by simp), if_neg, if_neg hb]
      · rfl
      · simp [hc, hd, he]

/-- What is recognised is an encoded scalar value. -/
theorem utf8Len_dec {l : List Byte} (h : utf8Len l ≠ 0) : ∃ cp t, Scalar cp ∧ 0x80 ≤ cp ∧ l = utf8 cp ++ t := by
  match l, h with
  | [], h => exact absurd rfl h
  | [a], h => exact absurd (utf8Len_one a) h
  | a :: b :: t, h =>
    rw [utf8Len_cons] at h
    by_cases h0 : leadLen a = 0
    · rw [if_pos h0] at h; exact absurd rfl h
    rw [if_neg h0] at h
    by_cases h1 : leadLen a > t.length + 2
    · rw [if_pos h1] at h; exact absurd rfl h
    rw [if_neg h1] at h
    by_cases h2 : ((b :: t).take (leadLen a - 1)).all isCont = false
    · rw [if_pos h2] at h; exact absurd rfl h
    rw [if_neg h2] at h
    by_cases h3 : badSecond a b = true
    · rw [if_pos h3] at h; exact absurd rfl h
    rw [badSecond_iff] at h3
    have h2 : ((b :: t).take (leadLen a - 1)).all isCont = true := by simpa using h2
    have hle := leadLen_eq a
    by_cases c2 : 0xC2 ≤ a.toNat ∧ a.toNat ≤ 0xDF
    · rw [if_pos c2] at hle
      rw [hle] at h2
      have hb : isCont b = true := by simpa using h2
      rw [isCont_iff] at hb
      refine ⟨(a.toNat - 0xC0) * 64 + (b.toNat - 0x80), t, ⟨by omega, by omega⟩, by omega, ?_⟩
      rw [utf8, if_neg (by omega), if_pos (by omega)]
      rw [ofNat_eq (c := a) (by omega), ofNat_eq (c := b) (by omega)]; rfl
    · rw [if_neg c2] at hle
      by_cases c3 : 0xE0 ≤ a.toNat ∧ a.toNat ≤ 0xEF
      · rw [if_pos c3] at hle
        rw [hle] at h1 h2
        match t, h1, h2 with
        | [], h1, _ => simp at h1
        | c :: t, _, h2 =>
          have hbc : isCont b = true ∧ isCont c = true := by simpa using h2
          rw [isCont_iff, isCont_iff] at hbc
          refine ⟨(a.toNat - 0xE0) * 4096 + (b.toNat - 0x80) * 64 + (c.toNat - 0x80), t, ⟨by omega, by omega⟩, by omega, ?_⟩
          rw [utf8, if_neg (by omega), if_neg (by omega), if_pos (by omega)]
          rw [ofNat_eq (c := a) (by omega), ofNat_eq (c := b) (by omega), ofNat_eq (c := c) (by omega)]; rfl
      · rw [if_neg c3] at hle
        by_cases c4 : 0xF0 ≤ a.toNat ∧ a.toNat ≤ 0xF4
        · rw [if_pos c4] at hle
          rw [hle] at h1 h2
          match t, h1, h2 with
          | [], h1, _ => simp at h1
          | [_], h1, _ => simp at h1
          | c :: d :: t, _, h2 =>
            have hbc : isCont b = true ∧ isCont c = true ∧ isCont d = true := by simpa using h2
            rw [isCont_iff, isCont_iff, isCont_iff] at hbc
            refine ⟨(a.toNat - 0xF0) * 262144 + (b.toNat - 0x80) * 4096 + (c.toNat - 0x80) * 64 + (d.toNat - 0x80), t,
              ⟨by omega, by omega⟩, by omega, ?_⟩
            rw [utf8, if_neg (by omega), if_neg (by omega), if_neg (by omega)]
            rw [ofNat_eq (c := a) (by omega), ofNat_eq (c := b) (by omega), ofNat_eq (c := c) (by omega),
              ofNat_eq (c := d) (by omega)]; rfl
        · rw [if_neg c4] at hle
          exact absurd hle h0

/-- Encoded values above 0x7F start with a byte above 0x7F. -/
theorem utf8_high {cp : Nat} (h : Scalar cp) (h80 : 0x80 ≤ cp) : ∃ c t, utf8 cp = c :: t ∧ 0x80 ≤ c.toNat ∧ ∀ x ∈ t, 0x80 ≤ x.toNat := by
  obtain ⟨h1, h2⟩ := h
  rw [utf8, if_neg (by omega)]
  split
  · refine ⟨_, _, rfl, by rw [toNat_ofNat_lt (by omega)]; omega, ?_⟩
    intro x hx
    simp only [List.mem_cons, List.not_mem_nil, or_false] at hx
    rw [hx, toNat_ofNat_lt (by omega)]; omega
  · split
    · refine ⟨_, _, rfl, by rw [toNat_ofNat_lt (by omega)]; omega, ?_⟩
      intro x hx
      simp only [List.mem_cons, List.not_mem_nil, or_false] at hx
      rcases hx with rfl | rfl <;> (rw [toNat_ofNat_lt (by omega)]; omega)
    · refine ⟨_, _, rfl, by rw [toNat_ofNat_lt (by omega)]; omega, ?_⟩
      intro x hx
      simp only [List.mem_cons, List.not_mem_nil, or_false] at hx
      rcases hx with rfl | rfl | rfl <;> (rw [toNat_ofNat_lt (by omega)]; omega)

theorem utf8_low {cp : Nat} (h80 : cp < 0x80) : utf8 cp = [UInt8.ofNat cp] := by rw [utf8, if_pos h80]

theorem fffd_scalar : Scalar 0xFFFD := ⟨by decide, by decide⟩

theorem utf8_fffd : utf8 0xFFFD = [0xEF, 0xBF, 0xBD] := by decide

end Nature.Json
