import Verif.Fmt.Spec
namespace Nature.Fmt

theorem value_nil (b : Nat) : value b [] = some 0 := rfl

theorem value_snoc (b : Nat) (l : List Byte) (c : Byte) :
    value b (l ++ [c]) = (value b l).bind fun a => (digitVal c).bind fun d => if d < b then some (a * b + d) else none := by
  simp only [value, List.foldl_append, List.foldl_cons, List.foldl_nil]

theorem ofNat_small {n : Nat} (h : n < 256) : (UInt8.ofNat n).toNat = n := by
  simp [UInt8.toNat_ofNat', Nat.mod_eq_of_lt h]

/-- A digit character and its value, for every digit of every base up to 16. -/
theorem digitVal_char : ∀ d < 16, ∀ letter : Byte, letter = 97 ∨ letter = 65 → digitVal (unsignedChar letter d) = some d := by
  intro d hd letter hl
  rcases hl with rfl | rfl
  · revert d; decide
  · revert d; decide

theorem char_zero : ∀ d < 16, ∀ letter : Byte, letter = 97 ∨ letter = 65 → unsignedChar letter d = 48 → d = 0 := by
  intro d hd letter hl
  rcases hl with rfl | rfl
  · revert d; decide
  · revert d; decide

theorem digitsU_value {b : Nat} (hb : 2 ≤ b) (hb2 : b ≤ 16) {letter : Byte} (hl : letter = 97 ∨ letter = 65) : ∀ f n,
    n < b ^ f → value b (digitsU b letter f n).reverse = some n := by
  intro f
  induction f with
  | zero => intro n h; rw [Nat.pow_zero] at h; have : n = 0 := by omega
            subst this; rfl
  | succ f ih =>
    intro n h
    rw [digitsU]
    by_cases h0 : n = 0
    · rw [if_pos h0, h0]; rfl
    · rw [if_neg h0, List.reverse_cons, value_snoc]
      have hlt : n % b < b := Nat.mod_lt _ (by omega)
      rw [ih (n / b) (by rw [Nat.pow_succ] at h; exact Nat.div_lt_of_lt_mul (by rw [Nat.mul_comm]; exact h)),
        digitVal_char _ (by omega) _ hl]
      show (if n % b < b then _ else _) = _
      rw [if_pos hlt, Nat.div_add_mod']

theorem digitsU_ne {b : Nat} {letter : Byte} {f n : Nat} (hf : 0 < f) (hn : n ≠ 0) : digitsU b letter f n ≠ [] := by
  cases f with
  | zero => omega
  | succ f => rw [digitsU, if_neg hn]; simp

/-- The most significant digit is not zero. -/
theorem digitsU_lead {b : Nat} (hb : 2 ≤ b) (hb2 : b ≤ 16) {letter : Byte} (hl : letter = 97 ∨ letter = 65) : ∀ f n,
    n < b ^ f → (digitsU b letter f n).getLast? ≠ some 48 := by
  intro f
  induction f with
  | zero => intro n h; rw [digitsU]; simp
  | succ f ih =>
    intro n h
    rw [digitsU]
    by_cases h0 : n = 0
    · rw [if_pos h0]; simp
    · rw [if_neg h0]
      have hlt : n % b < b := Nat.mod_lt _ (by omega)
      have hd : n / b < b ^ f := by
        rw [Nat.pow_succ] at h; exact Nat.div_lt_of_lt_mul (by rw [Nat.mul_comm]; exact h)
      cases hs : digitsU b letter f (n / b) with
      | nil =>
        have hq : n / b = 0 := by
          by_cases hf : 0 < f
          · exact Decidable.byContradiction fun hq => digitsU_ne hf hq hs
          · have : f = 0 := by omega
            subst this
            exact Nat.lt_one_iff.1 hd
        intro he
        rw [List.getLast?_singleton] at he
        have := char_zero _ (by omega) _ hl (Option.some.inj he)
        have h1 := Nat.div_add_mod n b
        rw [hq, this] at h1
        simp at h1
        exact h0 h1.symm
      | cons c t =>
        have := ih (n / b) hd
        rw [hs] at this
        rw [List.getLast?_cons_cons]
        exact this

theorem utosWith_numeral {b : Nat} (hb : 2 ≤ b) (hb2 : b ≤ 16) {letter : Byte} (hl : letter = 97 ∨ letter = 65) {n : Nat}
    (hn : n < b ^ 20) (fill : Byte) : Numeral b (utosWith b letter n fill 0) n := by
  rw [utosWith]
  by_cases h0 : n = 0
  · rw [if_pos h0, if_pos rfl, h0]
    refine ⟨?_, by simp, by simp⟩
    show (if 0 < b then some (0 * b + 0) else none) = _
    rw [if_pos (by omega)]; simp
  · rw [if_neg h0]
    dsimp only
    rw [Nat.zero_sub, List.replicate_zero, List.append_nil]
    refine ⟨digitsU_value hb hb2 hl 20 n hn, ?_, ?_⟩
    · intro h; exact digitsU_ne (by decide) h0 (List.reverse_eq_nil_iff.1 h)
    · intro h
      rw [List.head?_reverse] at h
      exact absurd h (digitsU_lead hb hb2 hl 20 n hn)

/-- The signed loop on a non-negative number is the unsigned one in base 10. -/
theorem digits_eq : ∀ f (n : Nat), digits f (n : Int) = digitsU 10 97 f n := by
  intro f
  induction f with
  | zero => intro n; rfl
  | succ f ih =>
    intro n
    rw [digits, digitsU]
    by_cases h0 : n = 0
    · rw [if_pos (by omega), if_pos h0]
    · rw [if_neg (by omega), if_neg h0]
      have h1 : ((n : Int).tmod 10) = ((n % 10 : Nat) : Int) := rfl
      have h2 : ((n : Int).tdiv 10) = ((n / 10 : Nat) : Int) := rfl
      rw [h1, h2, ih]
      congr 1
      have hlt : n % 10 < 10 := Nat.mod_lt _ (by decide)
      rw [digitChar, unsignedChar, if_pos hlt]
      congr 2
      omega

theorem pow_pred {N : Nat} (hN : 0 < N) : (2 : Int) ^ N = 2 * 2 ^ (N - 1) := by
  obtain ⟨M, rfl⟩ := Nat.exists_eq_succ_of_ne_zero (by omega : N ≠ 0)
  rw [Nat.succ_sub_one, Int.pow_succ]; omega

/-- Nothing is lost of a value that fits. -/
theorem wrapS_id {N : Nat} (hN : 0 < N) {i : Int} (h : InRange N i) : wrapS N i = i := by
  have hp := pow_pred hN
  obtain ⟨h1, h2⟩ := h
  rw [wrapS, Int.emod_eq_of_lt (by omega) (by omega)]
  omega

theorem wrapS_neg_min {N : Nat} (hN : 0 < N) : wrapS N (-(-2 ^ (N - 1))) = -2 ^ (N - 1) := by
  have hp := pow_pred hN
  have : (0 : Int) < 2 ^ (N - 1) := Int.pow_pos (by decide)
  rw [wrapS, show (-(-(2 : Int) ^ (N - 1)) + 2 ^ (N - 1)) = 2 ^ N by omega, Int.emod_self]
  omega

/-- The digits of an integer other than the smallest. -/
theorem neg_eq {N : Nat} (hN : 0 < N) {v : Int} (h : InRange N v) (hm : v ≠ -2 ^ (N - 1)) (hv : v < 0) :
    wrapS N (-v) = (v.natAbs : Int) := by
  obtain ⟨h1, h2⟩ := h
  rw [wrapS_id hN ⟨by omega, by omega⟩]
  omega

theorem natAbs_small {N : Nat} (hN : N ≤ 64) {v : Int} (h : InRange N v) : v.natAbs < 10 ^ 20 := by
  obtain ⟨h1, h2⟩ := h
  have hp : 2 ^ (N - 1) ≤ 2 ^ 63 := Nat.pow_le_pow_right (by decide) (by omega)
  have hc : ((2 ^ (N - 1) : Nat) : Int) = 2 ^ (N - 1) := by rw [Int.natCast_pow]; rfl
  rw [← hc] at h1 h2
  generalize 2 ^ (N - 1) = m at *
  omega

end Nature.Fmt
