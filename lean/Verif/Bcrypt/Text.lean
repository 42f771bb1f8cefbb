import Verif.Bcrypt.Crypt

/-! # The textual form, comparing, and which passwords give the same key -/

namespace Nature.Bcrypt

open Nature.Blowfish (W B Cipher Tables rd wr Sized flat)
open Nature.Blowfish.Spec (cyclic word)
open Spec (radix64 ascii)

/-! ## Comparing -/

theorem or_eq_zero {x y : B} : x ||| y = 0 ↔ x = 0 ∧ y = 0 := by
  constructor
  · intro h
    constructor
    · apply BitVec.eq_of_getLsbD_eq
      intro i hi
      have := congrArg (fun v : B => v.getLsbD i) h
      simp only [BitVec.getLsbD_or] at this
      simp at this ⊢
      exact this.1
    · apply BitVec.eq_of_getLsbD_eq
      intro i hi
      have := congrArg (fun v : B => v.getLsbD i) h
      simp only [BitVec.getLsbD_or] at this
      simp at this ⊢
      exact this.2
  · rintro ⟨rfl, rfl⟩; rfl

theorem xor_eq_zero {x y : B} : x ^^^ y = 0 ↔ x = y := by
  constructor
  · intro h
    have : x ^^^ y ^^^ y = y := by rw [h]; simp
    rw [BitVec.xor_assoc, BitVec.xor_self, BitVec.xor_zero] at this
    exact this
  · rintro rfl; exact BitVec.xor_self

theorem fold_or (a : List B) : ∀ b : List B, a.length = b.length → ∀ z : B,
    (List.zipWith (· ^^^ ·) a b).foldl (· ||| ·) z = 0 ↔ z = 0 ∧ a = b := by
  induction a with
  | nil =>
    intro b h z
    cases b with
    | nil => simp
    | cons _ _ => simp at h
  | cons x a ih =>
    intro b h z
    cases b with
    | nil => simp at h
    | cons y b =>
      simp only [List.zipWith_cons_cons, List.foldl_cons]
      rw [ih b (by simpa using h), or_eq_zero, xor_eq_zero]
      simp [and_assoc]

theorem compare_eq (a b : List B) : compare a b = decide (a = b) := by
  unfold compare
  split
  · rename_i h
    have : a ≠ b := fun e => h (by rw [e])
    simp [this]
  · rename_i h
    have h' : a.length = b.length := Decidable.not_not.mp h
    have := fold_or a b h' 0
    simp only [true_and] at this
    rw [Bool.eq_iff_iff, beq_iff_eq, decide_eq_true_iff]
    exact this

/-! ## Parsing what was printed -/

theorem ascii_prefix : ascii "$2a$" = [36, 50, 97, 36] := by decide

theorem ascii_dollar : ascii "$" = [36] := by decide

theorem digit_ok : ∀ c : Fin 32, 4 ≤ c.val →
    (48 ≤ (BitVec.ofNat 8 (48 + c.val / 10)).toNat ∧ (BitVec.ofNat 8 (48 + c.val / 10)).toNat ≤ 57) ∧
    (48 ≤ (BitVec.ofNat 8 (48 + c.val % 10)).toNat ∧ (BitVec.ofNat 8 (48 + c.val % 10)).toNat ≤ 57) ∧
    (0 * 10 + ((BitVec.ofNat 8 (48 + c.val / 10) - 48#8).toNat : Int)) * 10
      + ((BitVec.ofNat 8 (48 + c.val % 10) - 48#8).toNat : Int) = c.val ∧
    BitVec.ofInt 8 (48 + (c.val : Int) / 10) = BitVec.ofNat 8 (48 + c.val / 10) ∧
    BitVec.ofInt 8 (48 + (c.val : Int) % 10) = BitVec.ofNat 8 (48 + c.val % 10) := by
  decide +kernel

theorem parse_text {T : List W} {cost : Nat} (h4 : 4 ≤ cost) (h31 : cost ≤ 31) {salt : List B}
    (hs : salt.length = 16) (password : List B) :
    newFromHash (Spec.text T cost salt password) = .ok
      ⟨radix64 (Spec.digest T cost salt password), radix64 salt, cost, 50, 97⟩ := by
  have hd := digest_length T cost salt password
  generalize hg : Spec.digest T cost salt password = g at hd
  have l1 := radix64_length16 hs
  have l2 := radix64_length23 hd
  obtain ⟨d1, d2, d3, _, _⟩ := digit_ok ⟨cost, by omega⟩ h4
  simp only at d1 d2 d3
  have ht : Spec.text T cost salt password
      = 36 :: 50 :: 97 :: 36 :: BitVec.ofNat 8 (48 + cost / 10) :: BitVec.ofNat 8 (48 + cost % 10)
        :: 36 :: (radix64 salt ++ radix64 g) := by
    simp only [Spec.text, ascii_prefix, ascii_dollar, hg]
    simp
  generalize BitVec.ofNat 8 (48 + cost / 10) = x at d1 d3 ht
  generalize BitVec.ofNat 8 (48 + cost % 10) = y at d2 d3 ht
  rw [ht]
  have hlen : (36 :: 50 :: 97 :: 36 :: x :: y :: (36 : B) :: (radix64 salt ++ radix64 g)).length
      = 60 := by simp [l1, l2]
  generalize hR : radix64 salt ++ radix64 g = R at hlen ⊢
  have a0 : at' (36 :: 50 :: 97 :: 36 :: x :: y :: (36 : B) :: R) 0 = .ok 36 := rfl
  have a1 : at' (36 :: 50 :: 97 :: 36 :: x :: y :: (36 : B) :: R) 1 = .ok 50 := rfl
  have a2 : at' (36 :: 50 :: 97 :: 36 :: x :: y :: (36 : B) :: R) 2 = .ok 97 := rfl
  have a3 : at' (36 :: 50 :: 97 :: 36 :: x :: y :: (36 : B) :: R) 3 = .ok 36 := rfl
  have a4 : at' (36 :: 50 :: 97 :: 36 :: x :: y :: (36 : B) :: R) 4 = .ok x := rfl
  have a5 : at' (36 :: 50 :: 97 :: 36 :: x :: y :: (36 : B) :: R) 5 = .ok y := rfl
  have a6 : at' (36 :: 50 :: 97 :: 36 :: x :: y :: (36 : B) :: R) 6 = .ok 36 := rfl
  have r1 : (36 :: 50 :: 97 :: 36 :: x :: y :: (36 : B) :: R).drop 7 = R := rfl
  have r2 : (36 :: 50 :: 97 :: 36 :: x :: y :: (36 : B) :: R).drop 29 = R.drop 22 := rfl
  generalize hL : (36 :: 50 :: 97 :: 36 :: x :: y :: (36 : B) :: R) = L at *
  have c1 : costDigit L 4 0 = .ok (0 * 10 + ((x - 48#8).toNat : Int)) := by
    simp only [costDigit, a4, bind_ok, ge_iff_le, d1, and_self, if_true]
  have c2 : costDigit L 5 (0 * 10 + ((x - 48#8).toNat : Int)) = .ok (cost : Int) := by
    simp only [costDigit, a5, bind_ok, ge_iff_le, d2, and_self, if_true, d3]
  have c3 : checkCost (cost : Int) = .ok () := by
    rw [checkCost, if_neg (by omega)]
  have p1 : parseRest L 50 97 4 = .ok ⟨radix64 g, radix64 salt, cost, 50, 97⟩ := by
    rw [parseRest, if_neg (by omega)]
    simp only [Nat.reduceAdd, c1, c2, c3, a6, bind_ok, ne_eq, not_true_eq_false, if_false, hlen,
      r1, r2, ← hR]
    rw [if_neg (by omega)]
    rw [List.take_append_of_le_length (by omega), List.take_of_length_le (by omega),
      List.drop_append_of_le_length (by omega), List.drop_of_length_le (by omega),
      List.nil_append]
  have n1 : (97 : B) ≠ 36 := by decide
  have n2 : ¬ (50 : B).toNat > 50 := by decide
  rw [newFromHash, if_neg (by omega)]
  simp only [a0, a1, a2, bind_ok, ne_eq, not_true_eq_false, if_false, n1, n2, not_false_eq_true,
    if_true, a3]
  exact p1

theorem print_text {T : List W} {cost : Nat} (h4 : 4 ≤ cost) (h31 : cost ≤ 31) (salt password : List B) :
    hashToString ⟨radix64 (Spec.digest T cost salt password), radix64 salt, cost, 50, 97⟩
      = Spec.text T cost salt password := by
  obtain ⟨_, _, _, d4, d5⟩ := digit_ok ⟨cost, by omega⟩ h4
  simp only at d4 d5
  have n1 : (97 : B) ≠ 0 := by decide
  simp only [hashToString, d4, d5, ne_eq, n1, not_false_eq_true, if_true, Spec.text, ascii_prefix,
    ascii_dollar]
  simp

/-! ## Keys that are the same when repeated -/

theorem addKey_congr (T : List W) {k k' : List B} (h : ∀ i, i < 18 → cyclic k i = cyclic k' i) :
    Blowfish.Spec.addKey T k = Blowfish.Spec.addKey T k' := by
  unfold Blowfish.Spec.addKey
  generalize List.range 1042 = R
  apply List.map_congr_left
  intro i _
  split
  · rename_i hi; rw [h i hi]
  · rfl

theorem digest_congr (T : List W) (cost : Nat) (salt : List B) {p q : List B}
    (h : ∀ i, i < 18 → cyclic (p ++ [0]) i = cyclic (q ++ [0]) i) :
    Spec.digest T cost salt p = Spec.digest T cost salt q := by
  have e : ∀ U, Blowfish.Spec.expand U (p ++ [0]) = Blowfish.Spec.expand U (q ++ [0]) := fun U => by
    simp only [Blowfish.Spec.expand, addKey_congr U h]
  have e' : ∀ s, Blowfish.Spec.expandSalted T (p ++ [0]) s
      = Blowfish.Spec.expandSalted T (q ++ [0]) s := fun s => by
    simp only [Blowfish.Spec.expandSalted, addKey_congr T h]
  simp only [Spec.digest, Spec.setup, e, e']

theorem cyclic_prefix {p : List B} (hp : p.length = 72) (x y : List B) {i : Nat} (hi : i < 18) :
    cyclic (p ++ x) i = cyclic (p ++ y) i := by
  have e : ∀ (z : List B) (m : Nat), m < 72 →
      (p ++ z).getD (m % (p ++ z).length) 0 = p.getD m 0 := by
    intro z m hm
    have : m % (p ++ z).length = m := Nat.mod_eq_of_lt (by simp; omega)
    rw [this]
    simp only [List.getD]
    rw [List.getElem?_append_left (by omega)]
  simp only [cyclic]
  rw [e x _ (by omega), e x _ (by omega), e x _ (by omega), e x _ (by omega), e y _ (by omega),
    e y _ (by omega), e y _ (by omega), e y _ (by omega)]

theorem double_getD (k : List B) (hk : 0 < k.length) (m : Nat) :
    (k ++ k).getD (m % (k ++ k).length) 0 = k.getD (m % k.length) 0 := by
  have hl : (k ++ k).length = 2 * k.length := by simp; omega
  have h1 := Nat.mod_lt m (show 0 < 2 * k.length by omega)
  have h2 : m % k.length = m % (2 * k.length) % k.length := by
    rw [Nat.mod_mod_of_dvd _ ⟨2, Nat.mul_comm 2 k.length⟩]
  rw [hl, h2]
  generalize m % (2 * k.length) = r at h1
  simp only [List.getD]
  by_cases hr : r < k.length
  · rw [List.getElem?_append_left hr, Nat.mod_eq_of_lt hr]
  · rw [List.getElem?_append_right (by omega)]
    have : r % k.length = r - k.length := by
      rw [Nat.mod_eq_sub_mod (by omega), Nat.mod_eq_of_lt (by omega)]
    rw [this]

theorem cyclic_double (k : List B) (hk : 0 < k.length) (i : Nat) :
    cyclic (k ++ k) i = cyclic k i := by
  simp only [cyclic, double_getD k hk]

end Nature.Bcrypt
