import Verif.Map.Key
namespace Nature.Map
open Nature

/-- Reading decimal digits back. -/
def readDec (b : List Byte) : Nat := b.foldl (fun n x => n * 10 + (x.toNat - 48)) 0

theorem digit_toNat {d : Nat} (h : d < 10) : (BitVec.ofNat 8 (48 + d)).toNat = 48 + d := by
  rw [BitVec.toNat_ofNat]; omega

theorem readDec_digits (fuel n : Nat) (h : n < 10 ^ fuel) : readDec (decDigits fuel n) = n := by
  induction fuel generalizing n with
  | zero => simp at h; subst h; rfl
  | succ fuel ih =>
    unfold decDigits
    by_cases hn : n < 10
    · rw [if_pos hn]
      unfold readDec
      simp only [List.foldl_cons, List.foldl_nil, digit_toNat hn]; omega
    · rw [if_neg hn]
      have hq : n / 10 < 10 ^ fuel := by
        rw [Nat.pow_succ] at h
        exact Nat.div_lt_of_lt_mul (by omega)
      have := ih (n / 10) hq
      unfold readDec at this ⊢
      rw [List.foldl_append, this]
      simp only [List.foldl_cons, List.foldl_nil, digit_toNat (Nat.mod_lt n (by omega : (10 : Nat) > 0))]
      omega

theorem decDigits_head (fuel n : Nat) : ∀ x ∈ decDigits fuel n, x ≠ 45#8 ∧ x ≠ 0#8 := by
  induction fuel generalizing n with
  | zero => intro x hx; cases hx
  | succ fuel ih =>
    have hdig : ∀ d, d < 10 → BitVec.ofNat 8 (48 + d) ≠ 45#8 ∧ BitVec.ofNat 8 (48 + d) ≠ 0#8 := by
      intro d hd
      constructor
      · intro e
        have := congrArg BitVec.toNat e
        rw [digit_toNat hd] at this; simp at this; omega
      · intro e
        have := congrArg BitVec.toNat e
        rw [digit_toNat hd] at this; simp at this
    unfold decDigits
    intro x hx
    split at hx
    · rw [List.mem_singleton] at hx; subst hx
      exact hdig n (by omega)
    · rcases List.mem_append.1 hx with h | h
      · exact ih _ x h
      · rw [List.mem_singleton] at h; subst h
        exact hdig _ (Nat.mod_lt _ (by omega))

theorem itoa_inj {a b : Int} (ha : a.natAbs < 10 ^ 20) (hb : b.natAbs < 10 ^ 20) (h : itoa a = itoa b) : a = b := by
  have r1 := readDec_digits 20 _ ha
  have r2 := readDec_digits 20 _ hb
  unfold itoa at h
  by_cases h1 : a < 0
  · rw [if_pos h1] at h
    by_cases h2 : b < 0
    · rw [if_pos h2] at h
      rw [(List.cons.inj h).2, r2] at r1
      omega
    · rw [if_neg h2] at h
      have : (45#8 : Byte) ∈ decDigits 20 b.natAbs := by rw [← h]; exact List.mem_cons_self
      exact absurd rfl (decDigits_head 20 _ _ this).1
  · rw [if_neg h1] at h
    by_cases h2 : b < 0
    · rw [if_pos h2] at h
      have : (45#8 : Byte) ∈ decDigits 20 a.natAbs := by rw [h]; exact List.mem_cons_self
      exact absurd rfl (decDigits_head 20 _ _ this).1
    · rw [if_neg h2] at h
      rw [h, r2] at r1
      omega

theorem leNat_lt (b : List Byte) : leNat b < 256 ^ b.length := by
  induction b with
  | nil => simp [leNat]
  | cons x xs ih =>
    have := x.isLt
    simp only [leNat, List.length_cons, Nat.pow_succ]
    omega

theorem leNat_inj {a b : List Byte} (hl : a.length = b.length) (h : leNat a = leNat b) : a = b := by
  induction a generalizing b with
  | nil => cases b with | nil => rfl | cons => simp at hl
  | cons x xs ih =>
    cases b with
    | nil => simp at hl
    | cons y ys =>
      simp only [leNat] at h
      have := x.isLt; have := y.isLt
      have h1 : x.toNat = y.toNat := by omega
      have h2 : leNat xs = leNat ys := by omega
      rw [BitVec.eq_of_toNat_eq h1, ih (by simpa using hl) h2]

theorem toI64_inj {a b : Nat} (ha : a < 18446744073709551616) (hb : b < 18446744073709551616) (h : toI64 a = toI64 b) : a = b := by
  unfold toI64 at h
  split at h <;> split at h <;> omega

theorem toI64_small {a : Nat} (ha : a < 18446744073709551616) : (toI64 a).natAbs < 10 ^ 20 := by
  unfold toI64
  split <;> omega

theorem cstr_id {b : List Byte} (h : ∀ x ∈ b, x ≠ 0#8) : cstr b = b := by
  induction b with
  | nil => rfl
  | cons x xs ih =>
    have hx : (x != 0#8) = true := by simpa using h x List.mem_cons_self
    have := ih fun y hy => h y (List.mem_cons_of_mem _ hy)
    unfold cstr at this ⊢
    rw [List.takeWhile_cons, if_pos hx, this]

end Nature.Map
