import Verif.Fmt.Print
namespace Nature.Fmt

/-- A digit list has no sign in front. -/
theorem numeral_head {b : Nat} {l : List Byte} {n : Nat} (h : Numeral b l n) : l.head? ≠ some 45 := by
  cases l with
  | nil => exact fun e => by cases e
  | cons c t =>
    intro e
    have hc : c = 45 := by simpa using e
    subst hc
    have := h.val
    have hnone : ∀ l : List Byte, l.foldl (fun acc c => acc.bind fun a => (digitVal c).bind fun d =>
        if d < b then some (a * b + d) else none) none = none := by
      intro l; induction l with
      | nil => rfl
      | cons c l ih => exact ih
    rw [value, List.foldl_cons, show ((some 0).bind fun a => (digitVal 45).bind fun d =>
      if d < b then some (a * b + d) else none) = none from rfl, hnone] at this
    cases this

theorem pad_numeral {b : Nat} {l : List Byte} {n : Nat} (h : Numeral b l n) (zero : Bool) (width : Nat) :
    pad zero width l = List.replicate (width - l.length) (if zero then 48 else 32) ++ l := by
  rw [pad]
  cases zero
  · rfl
  · rw [if_pos rfl, if_neg (numeral_head h)]; rfl

theorem replicate_zero_pad {w : Nat} (h : w ≠ 0) : List.replicate w (48 : Byte) = List.replicate (w - 1) 48 ++ [48] := by
  obtain ⟨k, rfl⟩ : ∃ k, w = k + 1 := ⟨w - 1, by omega⟩
  rw [List.replicate_succ', Nat.add_sub_cancel]

theorem utosWith_nz {b : Nat} {letter : Byte} {n : Nat} (h : n ≠ 0) (fill : Byte) (w : Nat) : utosWith b letter n fill w =
    List.replicate (w - (digitsU b letter 20 n).length) fill ++ (digitsU b letter 20 n).reverse := by
  rw [utosWith, if_neg h]
  simp

theorem utosWith_nz0 {b : Nat} {letter : Byte} {n : Nat} (h : n ≠ 0) (fill : Byte) : utosWith b letter n fill 0 =
    (digitsU b letter 20 n).reverse := by
  rw [utosWith_nz h, Nat.zero_sub]; rfl

/-- The unsigned conversions, padded. -/
theorem utosWith_pad {b : Nat} (hb : 2 ≤ b) (hb2 : b ≤ 16) {letter : Byte} (hl : letter = 97 ∨ letter = 65) {n : Nat}
    (hn : n < b ^ 20) (zero : Bool) (width : Nat) (h0 : n = 0 → zero = true ∨ width = 0) :
    utosWith b letter n (if zero then 48 else 32) width = pad zero width (utosWith b letter n 48 0) := by
  rw [pad_numeral (utosWith_numeral hb hb2 hl hn 48)]
  by_cases hz : n = 0
  · rw [utosWith, if_pos hz, utosWith, if_pos hz, if_pos rfl]
    by_cases hw : width = 0
    · rw [if_pos hw, hw]; rfl
    · rw [if_neg hw]
      rcases h0 hz with h | h
      · subst h
        exact replicate_zero_pad hw
      · exact absurd h hw
  · rw [utosWith_nz hz, utosWith_nz0 hz, List.length_reverse]

theorem lower_char : ∀ d < 16, ¬ (65 ≤ unsignedChar 97 d ∧ unsignedChar 97 d ≤ 70) := by decide

theorem upper_char : ∀ d < 16, ¬ (97 ≤ unsignedChar 65 d ∧ unsignedChar 65 d ≤ 102) := by decide

theorem digitsU_chars {b : Nat} (hb : 0 < b) {letter : Byte} {P : Byte → Prop} (h : ∀ d < b, P (unsignedChar letter d)) : ∀ f n,
    ∀ c ∈ digitsU b letter f n, P c := by
  intro f
  induction f with
  | zero => intro n c hc; cases hc
  | succ f ih =>
    intro n c hc
    rw [digitsU] at hc
    split at hc
    · cases hc
    · rcases List.mem_cons.1 hc with rfl | hc
      · exact h _ (Nat.mod_lt _ hb)
      · exact ih _ _ hc

theorem utosWith_chars {b : Nat} (hb : 0 < b) {letter : Byte} {P : Byte → Prop} (h : ∀ d < b, P (unsignedChar letter d)) (n : Nat) :
    ∀ c ∈ utosWith b letter n 48 0, P c := by
  intro c hc
  by_cases h0 : n = 0
  · rw [utosWith, if_pos h0, if_pos rfl] at hc
    have : c = 48 := by simpa using hc
    rw [this]
    have := h 0 hb
    rwa [show unsignedChar letter 0 = 48 from rfl] at this
  · rw [utosWith_nz0 h0, List.mem_reverse] at hc
    exact digitsU_chars hb h _ _ c hc

/-- What the signed conversion prints, for every value but the smallest. -/
theorem itosWith_eq {N : Nat} (h0 : 0 < N) (hN : N ≤ 64) {v : Int} (h : InRange N v) (hm : v ≠ -2 ^ (N - 1)) (zero : Bool)
    (width : Nat) (hz : v = 0 → zero = true ∨ width = 0) :
    itosWith N v (if zero then 48 else 32) width =
      pad zero width (if v < 0 then 45 :: utosWith 10 97 v.natAbs 48 0 else utosWith 10 97 v.natAbs 48 0) := by
  have hsm := natAbs_small hN h
  by_cases hv : v < 0
  · have he := neg_eq h0 h hm hv
    have hne : ¬ ((v.natAbs : Int) = 0) := by omega
    have hne2 : ¬ (v.natAbs = 0) := by omega
    have hu : utosWith 10 97 v.natAbs 48 0 = (digitsU 10 97 20 v.natAbs).reverse := utosWith_nz0 hne2 48
    rw [if_pos hv, hu, itosWith]
    simp only [decide_eq_true hv, if_true, he]
    rw [if_neg hne, digits_eq]
    cases zero
    · rw [if_neg (by decide : ¬ (false = true)), if_pos rfl, pad, if_neg (by decide)]
      simp
    · rw [if_pos rfl, if_neg (by decide), pad, if_pos rfl, if_pos (by simp)]
      simp
  · have he : v = (v.natAbs : Int) := by omega
    have hnum := utosWith_numeral (b := 10) (by decide) (by decide) (Or.inl rfl : (97 : Byte) = 97 ∨ _) hsm 48
    rw [if_neg hv, pad_numeral hnum, itosWith]
    simp only [decide_eq_false hv, Bool.false_eq_true, if_false]
    by_cases h00 : v = 0
    · rw [if_pos h00]
      have : v.natAbs = 0 := by omega
      rw [this, show utosWith 10 97 0 48 0 = [48] from rfl]
      by_cases hw : width = 0
      · rw [if_pos hw, hw]; rfl
      · rw [if_neg hw]
        rcases hz h00 with h | h
        · subst h; exact replicate_zero_pad hw
        · exact absurd h hw
    · rw [if_neg h00, utosWith_nz0 (by omega)]
      have hd : digits 20 v = digitsU 10 97 20 v.natAbs := by
        have := digits_eq 20 v.natAbs
        rwa [← he] at this
      rw [hd]
      cases zero
      · simp
      · simp

theorem itos_decimal {N : Nat} (h0 : 0 < N) (hN : N ≤ 64) {v : Int} (h : InRange N v) :
    Decimal (if v < 0 then 45 :: utosWith 10 97 v.natAbs 48 0 else utosWith 10 97 v.natAbs 48 0) v := by
  have hnum := utosWith_numeral (b := 10) (by decide) (by decide) (Or.inl rfl : (97 : Byte) = 97 ∨ _) (natAbs_small hN h) 48
  rw [Decimal]
  by_cases hv : v < 0
  · rw [if_pos hv, if_pos hv]; exact ⟨_, rfl, hnum⟩
  · rw [if_neg hv, if_neg hv]; exact hnum

theorem wrapS_range {N : Nat} (h0 : 0 < N) (a : Int) : InRange N (wrapS N a) := by
  have hp := pow_pred h0
  have h1 := Int.emod_nonneg (a + 2 ^ (N - 1)) (b := 2 ^ N) (by have : (0 : Int) < 2 ^ (N - 1) := Int.pow_pos (by decide)
                                                                omega)
  have h2 := Int.emod_lt_of_pos (a + 2 ^ (N - 1)) (b := 2 ^ N) (by have : (0 : Int) < 2 ^ (N - 1) := Int.pow_pos (by decide)
                                                                   omega)
  rw [wrapS, InRange]
  omega

theorem wrapS_zero {N b : Nat} (h0 : 0 < N) (hb : b < 2 ^ N) (h : wrapS N b = 0) : b = 0 := by
  rw [wrapS] at h
  have hc : ((2 ^ N : Nat) : Int) = 2 ^ N := by rw [Int.natCast_pow]; rfl
  have hp := pow_pred h0
  have hpos : (0 : Int) < 2 ^ (N - 1) := Int.pow_pos (by decide)
  by_cases hlt : (b : Int) + 2 ^ (N - 1) < 2 ^ N
  · rw [Int.emod_eq_of_lt (by omega) hlt] at h; omega
  · have e : ((b : Int) + 2 ^ (N - 1)) % 2 ^ N = (b : Int) + 2 ^ (N - 1) - 2 ^ N := by
      rw [← Int.sub_emod_right, Int.emod_eq_of_lt (by omega) (by omega)]
    rw [e] at h
    omega

theorem lt16 {N b : Nat} (hN : N ≤ 64) (h : b < 2 ^ N) : b < 16 ^ 20 ∧ b < 10 ^ 20 := by
  have : b < 2 ^ 64 := Nat.lt_of_lt_of_le h (Nat.pow_le_pow_right (by decide) hN)
  constructor
  · exact Nat.lt_of_lt_of_le this (by decide)
  · exact Nat.lt_of_lt_of_le this (by decide)

theorem verbs_cases {verb : Byte} (h : verb ∈ ([118, 99, 100, 115, 102, 120, 88] : List Byte)) :
    verb = 118 ∨ verb = 99 ∨ verb = 100 ∨ verb = 115 ∨ verb = 102 ∨ verb = 120 ∨ verb = 88 := by
  simpa using h

/-- Every argument is printed as it should be. -/
theorem fmtArg_shown (F : Floats) (zero : Bool) (width prec : Nat) {verb : Byte}
    (hv : verb ∈ ([118, 99, 100, 115, 102, 120, 88] : List Byte)) {a : Arg} (ha : a.Ok) :
    Shown F zero width prec verb a (fmtArg F (if zero then 48 else 32) width prec verb a) := by
  cases a with
  | int N b =>
    obtain ⟨h0, hN, hb⟩ := ha
    have hr := wrapS_range h0 (b : Int)
    have h16 := (lt16 hN hb).1
    rcases verbs_cases hv with rfl | rfl | rfl | rfl | rfl | rfl | rfl
    · show wrapS N b ≠ -2 ^ (N - 1) → Decimal (itosWith N (wrapS N b) 48 0) (wrapS N b)
      intro hm
      have := itosWith_eq h0 hN hr hm true 0 (fun _ => Or.inr rfl)
      rw [if_pos rfl] at this
      rw [this]
      have hd := itos_decimal h0 hN hr
      suffices h : ∀ l, pad true 0 l = l by rw [h]; exact hd
      intro l
      rw [pad, if_pos rfl, Nat.zero_sub]
      split
      · rename_i h; cases l with
        | nil => cases h
        | cons c t => have : c = 45 := by simpa using h
                      rw [this]; rfl
      · rfl
    · rfl
    · show wrapS N b ≠ -2 ^ (N - 1) → _ → ∃ l, Decimal l (wrapS N b) ∧ itosWith N (wrapS N b) _ width = _
      intro hm hz
      exact ⟨_, itos_decimal h0 hN hr, itosWith_eq h0 hN hr hm zero width fun h => hz (wrapS_zero h0 hb h)⟩
    · rfl
    · rfl
    · exact fun hz => ⟨_, utosWith_numeral (by decide) (by decide) (Or.inl rfl) h16 48, utosWith_chars (by decide) lower_char b,
        utosWith_pad (by decide) (by decide) (Or.inl rfl) h16 zero width hz⟩
    · exact fun hz => ⟨_, utosWith_numeral (by decide) (by decide) (Or.inr rfl) h16 48, utosWith_chars (by decide) upper_char b,
        utosWith_pad (by decide) (by decide) (Or.inr rfl) h16 zero width hz⟩
  | uint N b =>
    obtain ⟨hN, hb⟩ := ha
    obtain ⟨h16, h10⟩ := lt16 hN hb
    rcases verbs_cases hv with rfl | rfl | rfl | rfl | rfl | rfl | rfl
    · exact utosWith_numeral (by decide) (by decide) (Or.inl rfl) h10 48
    · by_cases h8 : N = 8
      · subst h8; rfl
      · show (if (99 : Byte) = 99 ∧ N = 8 then _ else _)
        rw [if_neg (fun h => h8 h.2)]
        show (match Arg.uint N b with | .uint 8 b => [UInt8.ofNat b] | _ => bang 99) = _
        split
        · rename_i h; injection h with h1 h2; exact absurd h1 h8
        · rfl
    · exact fun hz => ⟨_, utosWith_numeral (by decide) (by decide) (Or.inl rfl) h10 48,
        utosWith_pad (by decide) (by decide) (Or.inl rfl) h10 zero width hz⟩
    · rfl
    · rfl
    · exact fun hz => ⟨_, utosWith_numeral (by decide) (by decide) (Or.inl rfl) h16 48, utosWith_chars (by decide) lower_char b,
        utosWith_pad (by decide) (by decide) (Or.inl rfl) h16 zero width hz⟩
    · exact fun hz => ⟨_, utosWith_numeral (by decide) (by decide) (Or.inr rfl) h16 48, utosWith_chars (by decide) upper_char b,
        utosWith_pad (by decide) (by decide) (Or.inr rfl) h16 zero width hz⟩
  | str s => rcases verbs_cases hv with rfl | rfl | rfl | rfl | rfl | rfl | rfl <;> rfl
  | bool b => cases b <;> rcases verbs_cases hv with rfl | rfl | rfl | rfl | rfl | rfl | rfl <;> first | rfl | decide +kernel
  | f32 b => rcases verbs_cases hv with rfl | rfl | rfl | rfl | rfl | rfl | rfl <;> rfl
  | f64 b => rcases verbs_cases hv with rfl | rfl | rfl | rfl | rfl | rfl | rfl <;> rfl
  | null => rcases verbs_cases hv with rfl | rfl | rfl | rfl | rfl | rfl | rfl <;> first | rfl | decide +kernel
  | other => rcases verbs_cases hv with rfl | rfl | rfl | rfl | rfl | rfl | rfl <;> rfl

theorem expand_printed (F : Floats) : ∀ (ps : List Piece) (args : List Arg), (∀ a ∈ args, a.Ok) →
    Printed F ps args (expand F ps args) := by
  intro ps
  induction ps with
  | nil => intro args _; exact .nil args
  | cons p ps ih =>
    intro args ha
    cases p with
    | lit c => exact .lit c (ih args ha)
    | percent => exact .percent (ih args ha)
    | dir zero width prec verb =>
      cases args with
      | nil => exact .missing _ _ _ _ (ih [] ha)
      | cons a as =>
        rw [expand]
        by_cases hv : verb ∈ ([118, 99, 100, 115, 102, 120, 88] : List Byte)
        · rw [if_pos hv]
          exact .arg _ _ _ _ hv (fmtArg_shown F zero _ _ hv (ha a (by simp))) (ih as fun x hx => ha x (by simp [hx]))
        · rw [if_neg hv]
          exact .unknown _ _ _ _ hv (ih (a :: as) ha)

end Nature.Fmt
