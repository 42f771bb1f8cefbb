/-
Keywords, operators and characters.
-/
import Verif.Scan.Spec
namespace Nature.Scan

/-! ### Keywords -/

def table : List (List Char × Kw) := (keywords ++ misread).map fun p => (p.1.toList, p.2)

theorem rest_some {r : List Char} {s : String} {k k' : Kw} (h : rest r s k = some k') : r = s.toList ∧ k = k' := by
  unfold rest at h
  split at h
  · exact ⟨‹_›, Option.some.inj h⟩
  · cases h

theorem keyword_table : ∀ p ∈ table, keyword p.1 = some p.2 := by decide +kernel

theorem caseF_mem {r : List Char} {k : Kw} (h : caseF r = some k) : ('f' :: r, k) ∈ table ∧
    (r.head? ≠ some 'l' → r.head? ≠ some 'n' → ('e' :: r, k) ∈ table) := by
  unfold caseF at h
  split at h
  case h_7 => cases h
  all_goals
    obtain ⟨rfl, rfl⟩ := rest_some h
    exact ⟨by decide +kernel, by decide +kernel⟩

theorem caseU_mem {r : List Char} {k : Kw} (h : caseU r = some k) : ('u' :: r, k) ∈ table ∧ ('v' :: r, k) ∈ table := by
  unfold caseU at h
  split at h
  case h_7 => cases h
  all_goals
    obtain ⟨rfl, rfl⟩ := rest_some h
    exact ⟨by decide +kernel, by decide +kernel⟩

theorem caseR_mem {r : List Char} {k : Kw} (h : caseR r = some k) : ('r' :: r, k) ∈ table ∧ ('m' :: r, k) ∈ table := by
  obtain ⟨rfl, rfl⟩ := rest_some h
  exact ⟨by decide +kernel, by decide +kernel⟩

theorem caseC_mem {r : List Char} {k : Kw} (h : caseC r = some k) : ('c' :: r, k) ∈ table := by
  unfold caseC at h
  split at h
  · split at h <;>
    · obtain ⟨rfl, rfl⟩ := rest_some h
      decide +kernel
  case h_4 => cases h
  all_goals
    obtain ⟨rfl, rfl⟩ := rest_some h
    decide +kernel

theorem caseI_mem {r : List Char} {k : Kw} (h : caseI r = some k) : ('i' :: r, k) ∈ table := by
  unfold caseI at h
  split at h
  case h_11 => cases h
  case h_1 => obtain rfl := Option.some.inj h; decide +kernel
  case h_2 => obtain rfl := Option.some.inj h; decide +kernel
  case h_3 => obtain rfl := Option.some.inj h; decide +kernel
  all_goals
    obtain ⟨rfl, rfl⟩ := rest_some h
    decide +kernel

theorem caseS_mem {r : List Char} {k : Kw} (h : caseS r = some k) : ('s' :: r, k) ∈ table := by
  unfold caseS at h
  split at h
  case h_4 => cases h
  all_goals
    obtain ⟨rfl, rfl⟩ := rest_some h
    decide +kernel

theorem caseT_mem {r : List Char} {k : Kw} (h : caseT r = some k) : ('t' :: r, k) ∈ table := by
  unfold caseT at h
  split at h
  case h_6 => cases h
  all_goals
    obtain ⟨rfl, rfl⟩ := rest_some h
    decide +kernel

theorem keyword_mem {w : List Char} {k : Kw} (h : keyword w = some k) : (w, k) ∈ table := by
  unfold keyword at h
  split at h
  case h_5 => exact caseC_mem h
  case h_7 =>
    split at h
    · obtain ⟨rfl, rfl⟩ := rest_some h; decide +kernel
    · obtain ⟨rfl, rfl⟩ := rest_some h; decide +kernel
    · rename_i r h1 h2
      refine (caseF_mem h).2 ?_ ?_
      · intro e; obtain ⟨y, e⟩ := List.head?_eq_some_iff.mp e; exact h1 y e
      · intro e; obtain ⟨y, e⟩ := List.head?_eq_some_iff.mp e; exact h2 y e
  case h_8 => exact (caseF_mem h).1
  case h_10 => exact caseI_mem h
  case h_14 => exact caseS_mem h
  case h_15 => exact caseT_mem h
  case h_16 =>
    split at h
    · obtain ⟨rfl, rfl⟩ := rest_some h; decide +kernel
    · obtain ⟨rfl, rfl⟩ := rest_some h; decide +kernel
    · exact (caseU_mem h).2
  case h_17 => exact (caseU_mem h).1
  case h_18 =>
    split at h
    · obtain ⟨rfl, rfl⟩ := rest_some h; decide +kernel
    · exact (caseR_mem h).2
  case h_19 => exact (caseR_mem h).1
  case h_20 => cases h
  all_goals
    obtain ⟨rfl, rfl⟩ := rest_some h
    decide +kernel

/-- A word is a keyword just if it is in the table. -/
theorem keyword_iff {w : List Char} {k : Kw} : keyword w = some k ↔ (w, k) ∈ table :=
  ⟨keyword_mem, fun h => keyword_table _ h⟩

theorem keyword_word {w : List Char} (hw : ∀ p ∈ misread, p.1.toList ≠ w) :
    wordTy w = wordType w := by
  unfold wordTy
  have hk : ∀ p ∈ keywords, keyword p.1.toList = some p.2 := fun p hp =>
    keyword_table (p.1.toList, p.2) (List.mem_map.mpr ⟨p, List.mem_append_left _ hp, rfl⟩)
  unfold wordType
  cases hf : keywords.find? (fun p => p.1.toList == w) with
  | some p =>
    have e : p.1.toList = w := by simpa using List.find?_some hf
    rw [← e, hk p (List.mem_of_find?_eq_some hf)]
  | none =>
    cases h : keyword w with
    | none => rfl
    | some k =>
      obtain ⟨p, hp, e⟩ := List.mem_map.mp (keyword_mem h)
      simp only [Prod.mk.injEq] at e
      rcases List.mem_append.mp hp with hp | hp
      · have := List.find?_eq_none.mp hf p hp
        simp [e.1] at this
      · exact absurd e.1 (hw p hp)

/-! ### Operators -/

theorem special_text (s : Sym) (r : List Char)
    (h : ∀ y : Sym, y.text.toList <+: s.text.toList ++ r → y.text.toList.length ≤ s.text.toList.length) :
    special (s.text.toList ++ r) = some (s, r) := by
  have h1 := h .percentEqual; have h2 := h .minusEqual; have h3 := h .arrow; have h4 := h .plusEqual
  have h5 := h .slashEqual; have h6 := h .starEqual; have h7 := h .ellipsis; have h8 := h .range; have h9 := h .notEqual
  have h10 := h .equalEqual; have h11 := h .leftShiftEqual; have h12 := h .leftShift; have h13 := h .lessEqual
  have h14 := h .greaterEqual; have h15 := h .rightShiftEqual; have h16 := h .andEqual; have h17 := h .andAnd
  have h18 := h .orEqual; have h19 := h .orOr; have h20 := h .xorEqual
  clear h
  cases s <;> simp [Sym.text, special] at * <;> split <;> simp_all

theorem special_take (s : Sym) (r : List Char) :
    (s.text.toList ++ r).take ((s.text.toList ++ r).length - r.length) = s.text.toList := by
  simp

/-! ### Characters -/

theorem isDigit_iff {c : Char} : isDigit c = true ↔ DigitChar c := by simp [isDigit, DigitChar]

theorem isWord_iff {c : Char} : isWord c = true ↔ WordChar c := by
  simp [isWord, isAlpha, isDigit, WordChar, or_assoc]

theorem isAlpha_iff {c : Char} : isAlpha c = true ↔ WordChar c ∧ ¬ DigitChar c := by
  constructor
  · intro h
    refine ⟨isWord_iff.mp (by simp [isWord, h]), ?_⟩
    simp only [isAlpha, Bool.or_eq_true, Bool.and_eq_true, decide_eq_true_eq, beq_iff_eq, Char.le_def, UInt32.le_iff_toNat_le] at h
    simp only [DigitChar, Char.le_def, UInt32.le_iff_toNat_le]
    rcases h with (⟨a, _⟩ | ⟨a, _⟩) | rfl
    · have : '9'.val.toNat < 'a'.val.toNat := by decide
      omega
    · have : '9'.val.toNat < 'A'.val.toNat := by decide
      omega
    · decide
  · rintro ⟨h, h'⟩
    rcases h with h | h
    · simpa [isAlpha, or_assoc] using h
    · exact absurd h h'

/-- Hexadecimal digits. -/
theorem hexOf_spec {c : Char} {v : Nat} (h : hexOf c = some v) : isHex c = true ∧ hexValue c = v ∧ (isOct c = true ↔ v < 8) ∧
    (isBin c = true ↔ v < 2) ∧ v < 16 := by
  unfold hexOf at h
  obtain ⟨p, hp, e⟩ := Option.map_eq_some_iff.mp h
  have hc : p.1 = c := by simpa using List.find?_some hp
  have hm := List.mem_of_find?_eq_some hp
  subst hc e
  have : ∀ p ∈ hexes, isHex p.1 = true ∧ hexValue p.1 = p.2 ∧ (isOct p.1 = true ↔ p.2 < 8) ∧ (isBin p.1 = true ↔ p.2 < 2) ∧ p.2 < 16 := by
    decide +kernel
  exact this p hm

theorem char_range {a b c : Char} (h1 : a ≤ c) (h2 : c ≤ b) : c.toNat ∈ List.range' a.toNat (b.toNat + 1 - a.toNat) := by
  rw [List.mem_range'_1]
  simp only [Char.le_def, UInt32.le_iff_toNat_le] at h1 h2
  simp only [Char.toNat] at *
  omega

theorem hexOf_of_isHex {c : Char} (h : isHex c = true) : ∃ v, hexOf c = some v := by
  have key : ∀ n ∈ List.range' '0'.toNat ('9'.toNat + 1 - '0'.toNat) ++ List.range' 'a'.toNat ('f'.toNat + 1 - 'a'.toNat) ++
      List.range' 'A'.toNat ('F'.toNat + 1 - 'A'.toNat), (hexOf (Char.ofNat n)).isSome = true := by decide +kernel
  have hm : c.toNat ∈ List.range' '0'.toNat ('9'.toNat + 1 - '0'.toNat) ++ List.range' 'a'.toNat ('f'.toNat + 1 - 'a'.toNat) ++
      List.range' 'A'.toNat ('F'.toNat + 1 - 'A'.toNat) := by
    simp only [isHex, Bool.or_eq_true, Bool.and_eq_true, decide_eq_true_eq] at h
    rw [List.mem_append, List.mem_append]
    rcases h with (⟨a, b⟩ | ⟨a, b⟩) | ⟨a, b⟩
    · exact .inl (.inl (char_range a b))
    · exact .inl (.inr (char_range a b))
    · exact .inr (char_range a b)
  have := key _ hm
  rw [Char.ofNat_toNat] at this
  exact Option.isSome_iff_exists.mp this

theorem isOct_isHex {c : Char} (h : isOct c = true) : isHex c = true := by
  simp only [isOct, Bool.and_eq_true, decide_eq_true_eq] at h
  have : ('7' : Char) ≤ '9' := by decide
  simp [isHex, h.1, Char.le_trans h.2 this]

theorem isBin_isHex {c : Char} (h : isBin c = true) : isHex c = true := by
  simp only [isBin, Bool.or_eq_true, beq_iff_eq] at h
  rcases h with rfl | rfl <;> decide

/-- The test for digits of a base. -/
def Base.test : Base → Char → Bool
  | .hex => isHex
  | .oct => isOct
  | .bin => isBin

theorem test_iff {b : Base} {c : Char} : b.test c = true ↔ b.Digit c := by
  constructor
  · intro h
    have hh : isHex c = true := by
      cases b
      · exact h
      · exact isOct_isHex h
      · exact isBin_isHex h
    obtain ⟨v, hv⟩ := hexOf_of_isHex hh
    obtain ⟨_, _, h3, h4, h5⟩ := hexOf_spec hv
    refine ⟨v, hv, ?_⟩
    cases b
    · exact h5
    · exact h3.mp h
    · exact h4.mp h
  · rintro ⟨v, hv, hlt⟩
    obtain ⟨h1, _, h3, h4, h5⟩ := hexOf_spec hv
    cases b
    · exact h1
    · exact h3.mpr hlt
    · exact h4.mpr hlt

end Nature.Scan
