/-
Lemmas on literals and 64-bit numbers.
-/
import Verif.Scan.Items
import Verif.Literal.Spec
namespace Nature.Literal
open Nature.Scan (IsDecimal DigitChar valueOf hexOf hexValue dec dec_spec)
open Nature.Parse (Expr Un Bin)

theorem digit_facts {c : Char} (h : DigitChar c) : '0' ≤ c ∧ c.toNat < '0'.toNat + 10 ∧ (hexOf c).getD 0 = hexValue c := by
  have h2 : '0'.toNat ≤ c.toNat ∧ c.toNat ≤ '9'.toNat := by
    have := h
    simp only [DigitChar, Char.le_def, UInt32.le_iff_toNat_le] at this
    exact this
  refine ⟨h.1, by have := h2.2; simp at this ⊢; omega, ?_⟩
  have key : ∀ n ∈ List.range 58, 48 ≤ n → (hexOf (Char.ofNat n)).getD 0 = hexValue (Char.ofNat n) := by decide +kernel
  have := key c.toNat (by have := h2.2; simp at this ⊢; omega) (by simpa using h2.1)
  rwa [Char.ofNat_toNat] at this

theorem digits_ten (w : List Char) (h : ∀ c ∈ w, DigitChar c) (n : Nat) :
    digits 10 n w = (w.foldl (fun n c => n * 10 + (hexOf c).getD 0) n, []) := by
  induction w generalizing n with
  | nil => rfl
  | cons c w ih =>
    obtain ⟨h1, h2, h3⟩ := digit_facts (h c (by simp))
    rw [digits, if_pos ⟨h1, h2⟩, ih (fun x hx => h x (by simp [hx])), List.foldl_cons, h3]

theorem digits_decimal {n : Nat} {w : List Char} (h : IsDecimal n w) :
    digits 10 0 w = (n, []) ∧ digits (base0 w) 0 w = (n, []) := by
  obtain ⟨h1, h2, h3⟩ := h
  have ht : digits 10 0 w = (n, []) := by rw [digits_ten w h1 0, ← h2]; rfl
  refine ⟨ht, ?_⟩
  rcases h3 with rfl | ⟨c, r, rfl, hc⟩
  · have : valueOf 10 ['0'] = 0 := by decide
    rw [this] at h2
    subst h2
    rfl
  · have : base0 (c :: r) = 10 := by
      unfold base0
      split
      · rename_i e; cases e; exact absurd rfl hc
      · rfl
    rw [this]; exact ht

theorem clampS_fits {neg : Bool} {n : Nat} (h : Fits (if neg then -(n : Int) else n)) :
    clampS neg n = if neg then -(n : Int) else n := by
  obtain ⟨h1, h2⟩ := h
  unfold clampS
  cases neg <;> simp only [Bool.false_eq_true, if_false, if_true] at h1 h2 ⊢ <;> omega

theorem written_atoll {neg : Bool} {w : List Char} {v : Int} (h : Written neg w v) (hf : Fits v) : atoll neg w = v ∧ strtoll0 neg w = v := by
  obtain ⟨n, hn, rfl⟩ := h
  obtain ⟨h1, h2⟩ := digits_decimal hn
  exact ⟨by rw [atoll, h1]; exact clampS_fits hf, by rw [strtoll0, h2]; exact clampS_fits hf⟩

theorem has_fits {k : Kind} (hk : k ≠ .u64) {v : Int} (h : k.Has v) : Fits v := by
  obtain ⟨h1, h2⟩ := h
  unfold Fits
  cases k <;> simp only [Kind.min, Kind.max] at h1 h2 <;> first | exact absurd rfl hk | omega

theorem rangeCheck_iff {k : Kind} (h1 : k ≠ .u64) (h2 : k ≠ .i64) (i : Int) : rangeCheck k i = true ↔ k.Has i := by
  unfold Kind.Has
  cases k <;> simp only [rangeCheck, Kind.min, Kind.max, Bool.and_eq_true, decide_eq_true_eq] <;> first | exact absurd rfl h1 | exact absurd rfl h2

/-! ### 64-bit numbers -/

theorem toInt_fits {v : Int} (h : Fits v) : (BitVec.ofInt 64 v).toInt = v :=
  BitVec.toInt_ofInt_eq_self (by decide) h.1 h.2

theorem fits_toInt (x : BitVec 64) : Fits x.toInt := ⟨x.le_toInt, x.toInt_lt⟩

theorem ofInt_bit (x : Int) {i : Nat} (hi : i < 64) : (BitVec.ofInt 64 x).getLsbD i = bit x i := by
  rw [BitVec.getLsbD, BitVec.toNat_ofInt, Nat.testBit_eq_decide_div_mod_eq]
  have hp : (2 : Int) ^ 64 = 2 ^ i * 2 ^ (64 - i) := by rw [← Int.pow_add]; congr 1; omega
  have hpos : (0 : Int) < 2 ^ i := Int.pow_pos (by decide)
  have h2 : (2 : Int) ^ (64 - i) = 2 * 2 ^ (63 - i) := by rw [show 64 - i = (63 - i) + 1 by omega, Int.pow_succ, Int.mul_comm]
  have hx : x = x % 2 ^ 64 + 2 ^ i * (2 ^ (64 - i) * (x / 2 ^ 64)) := by
    rw [← Int.mul_assoc, ← hp]; have := Int.emod_add_mul_ediv x (2 ^ 64); omega
  have hn : 0 ≤ x % 2 ^ 64 := Int.emod_nonneg _ (by decide)
  have hd : x / 2 ^ i = x % 2 ^ 64 / 2 ^ i + 2 ^ (64 - i) * (x / 2 ^ 64) := by
    have := Int.add_mul_ediv_left (x % 2 ^ 64) (2 ^ (64 - i) * (x / 2 ^ 64)) (b := 2 ^ i) (by omega)
    rw [← hx] at this
    exact this
  have hm : x / 2 ^ i % 2 = x % 2 ^ 64 / 2 ^ i % 2 := by
    rw [hd, h2, Int.mul_assoc]
    exact Int.add_mul_emod_self_left _ _ _
  unfold bit
  rw [hm]
  have hc : ((x % ((2 ^ 64 : Nat) : Int)).toNat : Int) = x % 2 ^ 64 := Int.toNat_of_nonneg hn
  have : (((x % ((2 ^ 64 : Nat) : Int)).toNat / 2 ^ i % 2 : Nat) : Int) = x % 2 ^ 64 / 2 ^ i % 2 := by
    rw [Int.natCast_emod, Int.natCast_ediv, hc, Int.natCast_pow]; rfl
  rw [← this]
  cases hq : decide ((x % ((2 ^ 64 : Nat) : Int)).toNat / 2 ^ i % 2 = 1) with
  | true => simp only [decide_eq_true_eq] at hq; rw [hq]; rfl
  | false =>
    simp only [decide_eq_false_iff_not] at hq
    symm
    simp only [beq_eq_false_iff_ne, ne_eq]
    intro e; apply hq; exact Int.ofNat_inj.mp e

theorem bits_spec {f : BitVec 64 → BitVec 64 → BitVec 64} {g : Bool → Bool → Bool} {x y v : Int}
    (hf : ∀ a b i, (f a b).getLsbD i = g (a.getLsbD i) (b.getLsbD i)) (hv : Fits v)
    (h : ∀ i, i < 64 → bit v i = g (bit x i) (bit y i)) : bits f x y = v := by
  have : f (BitVec.ofInt 64 x) (BitVec.ofInt 64 y) = BitVec.ofInt 64 v := by
    apply BitVec.eq_of_getLsbD_eq
    intro i hi
    rw [hf, ofInt_bit _ hi, ofInt_bit _ hi, ofInt_bit _ hi, h i hi]
  rw [bits, this, toInt_fits hv]

theorem bnot_spec {x v : Int} (hx : Fits x) (hv : Fits v) (h : ∀ i, i < 64 → bit v i = !bit x i) : v = -x - 1 := by
  have : ~~~ (BitVec.ofInt 64 x) = BitVec.ofInt 64 v := by
    apply BitVec.eq_of_getLsbD_eq
    intro i hi
    rw [BitVec.getLsbD_not, ofInt_bit _ hi, ofInt_bit _ hi, h i hi]
    simp [hi]
  have h1 := toInt_fits hv
  rw [← this, BitVec.not_eq_neg_add] at h1
  have h2 : BitVec.ofInt 64 (-x - 1) = -BitVec.ofInt 64 x - 1#64 := by
    rw [Int.sub_eq_add_neg, BitVec.ofInt_add, BitVec.ofInt_neg, BitVec.sub_eq_add_neg]
    rfl
  rw [← h2, toInt_fits] at h1
  · exact h1.symm
  · obtain ⟨a, b⟩ := hx; constructor <;> omega

/-! ### The literal of a number -/

theorem lit_written {v : Int} (h : v.natAbs < 2 ^ 64) : ∃ neg w, lit v = .int neg w ∧ Written neg w v := by
  refine ⟨_, _, rfl, v.natAbs, dec_spec h, ?_⟩
  by_cases hv : v < 0
  · simp only [hv, decide_true, if_true]; omega
  · simp only [hv, decide_false, Bool.false_eq_true, if_false]; omega

theorem fits_abs {v : Int} (h : Fits v) : v.natAbs < 2 ^ 64 := by
  obtain ⟨h1, h2⟩ := h; omega

theorem compile_written {k : Kind} {neg : Bool} {w : List Char} {v : Int} (h : Written neg w v) (hk : k.Has v) : compile k neg w = .ok v := by
  obtain ⟨n, hn, hv⟩ := h
  obtain ⟨h1, h2⟩ := digits_decimal hn
  have hr : rangeCheck k (atoll neg w) = true := by
    by_cases a : k = .u64
    · subst a; rfl
    by_cases b : k = .i64
    · subst b; rfl
    rw [(written_atoll ⟨n, hn, hv⟩ (has_fits a hk)).1, rangeCheck_iff a b]
    exact hk
  unfold compile
  rw [if_pos hr, h2]
  simp only [if_true]
  congr 1
  by_cases hu : isUnsigned k = true
  · rw [if_pos hu]
    obtain ⟨a, b⟩ := hk
    unfold clampU
    cases neg with
    | false =>
      simp only [Bool.false_eq_true, if_false] at hv ⊢
      rw [if_pos (by cases k <;> simp only [Kind.max] at b <;> first | omega | cases hu)]
      exact hv.symm
    | true =>
      simp only [if_true] at hv ⊢
      have hn0 : n = 0 := by cases k <;> simp only [Kind.min] at a <;> first | omega | cases hu
      subst hn0
      rw [if_pos (by decide), hv]; rfl
  · rw [if_neg hu]
    have : k ≠ .u64 := by rintro rfl; exact hu rfl
    rw [clampS_fits (by rw [← hv]; exact has_fits this hk), hv]

end Nature.Literal
