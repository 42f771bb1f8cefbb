import Verif.Bcrypt.Spec
import Verif.Bcrypt.Model
import Verif.Blowfish.Cipher

/-! # The text encoding of bytes, and back -/

namespace Nature.Bcrypt

open Nature.Blowfish (W B rd or_add shift_toNat)
open Spec (digit digits radix64)

theorem bind_ok {α β : Type} (a : α) (f : α → Except Err β) : (Except.ok a >>= f) = f a := rfl

theorem bind_error {α β : Type} (e : Err) (f : α → Except Err β) :
    ((Except.error e : Except Err α) >>= f) = Except.error e := rfl

theorem at_ok {α : Type} {v : List α} {i : Nat} {x : α} (h : v[i]? = some x) : at' v i = .ok x := by
  simp [at', rd, h]

theorem at_drop {α : Type} (v : List α) (i k : Nat) : at' v (i + k) = at' (v.drop i) k := by
  simp [at', rd]

theorem at_drop0 {α : Type} (v : List α) (i : Nat) : at' v i = at' (v.drop i) 0 := by
  simp [at', rd]

theorem alphabet_length : alphabet.length = 64 := by decide +kernel

theorem alphabet_eq : alphabet = digits := rfl

theorem at_alphabet {n : Nat} (h : n < 64) : at' alphabet n = .ok (digit n) := by
  have hl : n < alphabet.length := by rw [alphabet_length]; exact h
  apply at_ok
  rw [List.getElem?_eq_getElem hl]
  simp [digit, ← alphabet_eq, List.getD, hl]

theorem and_3f (x : W) : (x &&& 0x3F#32).toNat = x.toNat % 64 := by
  rw [BitVec.toNat_and]
  exact Nat.and_two_pow_sub_one_eq_mod x.toNat 6

theorem small_shift (x k : Nat) (h : x < 2 ^ 8) (hk : k ≤ 24) :
    x % 2 ^ 32 * 2 ^ k % 2 ^ 32 = x * 2 ^ k := Blowfish.shifted x k h hk

theorem val1 (a : B) : (a.setWidth 32 <<< 16 : W).toNat = a.toNat * 65536 := by
  rw [BitVec.toNat_shiftLeft, BitVec.toNat_setWidth, Nat.shiftLeft_eq,
    small_shift _ 16 a.isLt (by decide)]

theorem val2 (a b : B) : ((a.setWidth 32 <<< 16 : W) ||| (b.setWidth 32 <<< 8)).toNat
    = a.toNat * 65536 + b.toNat * 256 := by
  have hb := b.isLt
  rw [BitVec.toNat_or, val1, BitVec.toNat_shiftLeft, BitVec.toNat_setWidth, Nat.shiftLeft_eq,
    small_shift _ 8 b.isLt (by decide)]
  exact or_add a.toNat _ 16 (by omega)

theorem val3 (a b c : B) :
    ((a.setWidth 32 <<< 16 : W) ||| (b.setWidth 32 <<< 8) ||| c.setWidth 32).toNat
    = a.toNat * 65536 + b.toNat * 256 + c.toNat := by
  have hc := c.isLt
  rw [BitVec.toNat_or, val2, BitVec.toNat_setWidth, Nat.mod_eq_of_lt (show c.toNat < 2 ^ 32 by omega)]
  have := or_add (a.toNat * 256 + b.toNat) c.toNat 8 hc
  rw [show (a.toNat * 256 + b.toNat) * 2 ^ 8 = a.toNat * 65536 + b.toNat * 256 by omega] at this
  exact this

theorem drop_length {α : Type} {v w : List α} {i : Nat} (h : v.drop i = w) (hw : w ≠ []) :
    v.length = i + w.length := by
  have h1 : w.length = v.length - i := by rw [← h, List.length_drop]
  have h2 : 0 < w.length := List.length_pos_iff.mpr hw
  omega

theorem encodeGroup_three {src rest : List B} {i : Nat} {a b c : B}
    (h : src.drop i = a :: b :: c :: rest) :
    encodeGroup src i = .ok (radix64 [a, b, c]) := by
  have hl := drop_length h (by simp)
  simp only [List.length_cons] at hl
  have ha := a.isLt; have hb := b.isLt; have hc := c.isLt
  have e0 : at' src i = .ok a := by rw [at_drop0, h]; rfl
  have e1 : at' src (i + 1) = .ok b := by rw [at_drop, h]; rfl
  have e2 : at' src (i + 2) = .ok c := by rw [at_drop, h]; rfl
  have b1 : i + 1 < src.length := by omega
  have b2 : i + 2 < src.length := by omega
  simp only [encodeGroup, e0, e1, e2, bind_ok, b1, b2, if_true, and_3f, shift_toNat, val3,
    Nat.reduceLT, Nat.lt_irrefl]
  rw [at_alphabet (Nat.mod_lt _ (by decide)), at_alphabet (Nat.mod_lt _ (by decide)),
    at_alphabet (Nat.mod_lt _ (by decide)), at_alphabet (Nat.mod_lt _ (by decide))]
  have m : (a.toNat * 65536 + b.toNat * 256 + c.toNat) / 2 ^ 18 % 64
      = (a.toNat * 65536 + b.toNat * 256 + c.toNat) / 262144 := by omega
  simp only [m]
  simp [bind_ok, radix64]

theorem encodeGroup_two {src : List B} {i : Nat} {a b : B} (h : src.drop i = [a, b]) :
    encodeGroup src i = .ok (radix64 [a, b]) := by
  have hl := drop_length h (by simp)
  simp only [List.length_cons, List.length_nil] at hl
  have ha := a.isLt; have hb := b.isLt
  have e0 : at' src i = .ok a := by rw [at_drop0, h]; rfl
  have e1 : at' src (i + 1) = .ok b := by rw [at_drop, h]; rfl
  have b1 : i + 1 < src.length := by omega
  have b2 : ¬ i + 2 < src.length := by omega
  simp only [encodeGroup, e0, e1, bind_ok, b1, b2, if_true, if_false, and_3f, shift_toNat, val2,
    Nat.reduceLT, Nat.lt_irrefl, Nat.zero_add]
  rw [at_alphabet (Nat.mod_lt _ (by decide)), at_alphabet (Nat.mod_lt _ (by decide)),
    at_alphabet (Nat.mod_lt _ (by decide))]
  have m : (a.toNat * 65536 + b.toNat * 256) / 2 ^ 18 % 64
      = (a.toNat * 65536 + b.toNat * 256) / 262144 := by omega
  simp only [m]
  simp [bind_ok, radix64]

theorem encodeGroup_one {src : List B} {i : Nat} {a : B} (h : src.drop i = [a]) :
    encodeGroup src i = .ok (radix64 [a]) := by
  have hl := drop_length h (by simp)
  simp only [List.length_cons, List.length_nil] at hl
  have ha := a.isLt
  have e0 : at' src i = .ok a := by rw [at_drop0, h]; rfl
  have b1 : ¬ i + 1 < src.length := by omega
  have b2 : ¬ i + 2 < src.length := by omega
  simp only [encodeGroup, e0, bind_ok, b1, b2, if_false, and_3f, shift_toNat, val1,
    Nat.reduceLT, Nat.lt_irrefl, Nat.reduceAdd]
  rw [at_alphabet (Nat.mod_lt _ (by decide)), at_alphabet (Nat.mod_lt _ (by decide))]
  have m : (a.toNat * 65536) / 2 ^ 18 % 64 = (a.toNat * 65536) / 262144 := by omega
  simp only [m]
  simp [bind_ok, radix64]

theorem encodeFrom_eq (src : List B) (k : Nat) : ∀ i acc, src.length - i ≤ k →
    encodeFrom src i acc = .ok (acc ++ radix64 (src.drop i)) := by
  induction k with
  | zero =>
    intro i acc h
    rw [encodeFrom, if_neg (by omega), List.drop_eq_nil_of_le (by omega)]
    simp [radix64]
  | succ k ih =>
    intro i acc h
    rw [encodeFrom]
    by_cases hi : i < src.length
    · rw [if_pos hi]
      have hne : src.drop i ≠ [] := by simp; omega
      have hd : src.drop (i + 3) = (src.drop i).drop 3 := by rw [List.drop_drop]
      match hs : src.drop i, hne with
      | [a], _ =>
        simp only [encodeGroup_one hs]
        rw [ih (i + 3) _ (by omega), hd, hs]
        simp [radix64]
      | [a, b], _ =>
        simp only [encodeGroup_two hs]
        rw [ih (i + 3) _ (by omega), hd, hs]
        simp [radix64]
      | a :: b :: c :: rest, _ =>
        simp only [encodeGroup_three hs]
        rw [ih (i + 3) _ (by omega), hd, hs]
        simp [radix64]
    · rw [if_neg hi, List.drop_eq_nil_of_le (by omega)]
      simp [radix64]

theorem encode_eq (src : List B) : encode src = .ok (radix64 src) := by
  rw [encode, encodeFrom_eq src src.length 0 [] (by omega)]
  simp

/-! ## Decoding -/

theorem charToValue_digit : ∀ n : Fin 64, charToValue (digit n) = some n.val ∧ digit n ≠ eqChar := by
  decide +kernel

theorem decodeChar_digit {n : Nat} (h : n < 64) : decodeChar (digit n) = .ok n := by
  have := charToValue_digit ⟨n, h⟩
  simp only at this
  rw [decodeChar, if_neg this.2, this.1]

theorem digit_ne {n : Nat} (h : n < 64) : digit n ≠ eqChar := (charToValue_digit ⟨n, h⟩).2

theorem decodeChar_eq : decodeChar eqChar = .ok 0 := rfl

/-- One group of four characters. -/
def group4 (c0 c1 c2 c3 : B) : Except Err (List B) := do
  let v0 ← decodeChar c0
  let v1 ← decodeChar c1
  let v2 ← decodeChar c2
  let v3 ← decodeChar c3
  let combined : W := (BitVec.ofNat 32 v0 <<< 18) ||| (BitVec.ofNat 32 v1 <<< 12) |||
    (BitVec.ofNat 32 v2 <<< 6) ||| BitVec.ofNat 32 v3
  .ok ([(combined >>> 16).setWidth 8] ++
    (if c2 ≠ eqChar then [(combined >>> 8).setWidth 8] else []) ++
    (if c3 ≠ eqChar then [combined.setWidth 8] else []))

theorem decodeGroup_eq {src rest : List B} {i : Nat} {c0 c1 c2 c3 : B}
    (h : src.drop i = c0 :: c1 :: c2 :: c3 :: rest) :
    decodeGroup src i = group4 c0 c1 c2 c3 := by
  have e0 : at' src i = .ok c0 := by rw [at_drop0, h]; rfl
  have e1 : at' src (i + 1) = .ok c1 := by rw [at_drop, h]; rfl
  have e2 : at' src (i + 2) = .ok c2 := by rw [at_drop, h]; rfl
  have e3 : at' src (i + 3) = .ok c3 := by rw [at_drop, h]; rfl
  simp only [decodeGroup, e0, e1, e2, e3, bind_ok, group4]

theorem combined_eq (v0 v1 v2 v3 : Nat) (h0 : v0 < 64) (h1 : v1 < 64) (h2 : v2 < 64) (h3 : v3 < 64) :
    ((BitVec.ofNat 32 v0 <<< 18) ||| (BitVec.ofNat 32 v1 <<< 12) |||
      (BitVec.ofNat 32 v2 <<< 6) ||| BitVec.ofNat 32 v3 : W).toNat
    = v0 * 262144 + v1 * 4096 + v2 * 64 + v3 := by
  rw [BitVec.toNat_or, BitVec.toNat_or, BitVec.toNat_or, BitVec.toNat_shiftLeft,
    BitVec.toNat_shiftLeft, BitVec.toNat_shiftLeft, Nat.shiftLeft_eq, Nat.shiftLeft_eq,
    Nat.shiftLeft_eq, BitVec.toNat_ofNat, BitVec.toNat_ofNat, BitVec.toNat_ofNat,
    BitVec.toNat_ofNat, small_shift _ 18 (by omega) (by decide),
    small_shift _ 12 (by omega) (by decide), small_shift _ 6 (by omega) (by decide),
    Nat.mod_eq_of_lt (show v3 < 2 ^ 32 by omega)]
  rw [or_add v0 _ 18 (by omega)]
  have e1 := or_add (v0 * 64 + v1) (v2 * 2 ^ 6) 12 (by omega)
  rw [show (v0 * 64 + v1) * 2 ^ 12 = v0 * 2 ^ 18 + v1 * 2 ^ 12 by omega] at e1
  rw [e1]
  have e2 := or_add (v0 * 4096 + v1 * 64 + v2) v3 6 (by omega)
  rw [show (v0 * 4096 + v1 * 64 + v2) * 2 ^ 6 = v0 * 2 ^ 18 + v1 * 2 ^ 12 + v2 * 2 ^ 6 by omega] at e2
  rw [e2]

theorem group_three (a b c : B) :
    let n := a.toNat * 65536 + b.toNat * 256 + c.toNat
    group4 (digit (n / 262144)) (digit (n / 4096 % 64)) (digit (n / 64 % 64)) (digit (n % 64))
      = .ok [a, b, c] := by
  intro n
  have ha := a.isLt; have hb := b.isLt; have hc := c.isLt
  have hn : n < 2 ^ 24 := by omega
  have l0 : n / 262144 < 64 := by omega
  have l1 : n / 4096 % 64 < 64 := Nat.mod_lt _ (by decide)
  have l2 : n / 64 % 64 < 64 := Nat.mod_lt _ (by decide)
  have l3 : n % 64 < 64 := Nat.mod_lt _ (by decide)
  have hv := combined_eq _ _ _ _ l0 l1 l2 l3
  simp only [group4, decodeChar_digit l0, decodeChar_digit l1, decodeChar_digit l2,
    decodeChar_digit l3, bind_ok, ne_eq, digit_ne l2, digit_ne l3, not_false_eq_true, if_true]
  generalize ((BitVec.ofNat 32 (n / 262144) <<< 18) ||| (BitVec.ofNat 32 (n / 4096 % 64) <<< 12) |||
      (BitVec.ofNat 32 (n / 64 % 64) <<< 6) ||| BitVec.ofNat 32 (n % 64) : W) = v at hv
  have e0 : (v >>> 16).setWidth 8 = a := by
    apply BitVec.eq_of_toNat_eq
    rw [BitVec.toNat_setWidth, shift_toNat, hv]; omega
  have e1 : (v >>> 8).setWidth 8 = b := by
    apply BitVec.eq_of_toNat_eq
    rw [BitVec.toNat_setWidth, shift_toNat, hv]; omega
  have e2 : v.setWidth 8 = c := by
    apply BitVec.eq_of_toNat_eq
    rw [BitVec.toNat_setWidth, hv]; omega
  rw [e0, e1, e2]; rfl

theorem group_two (a b : B) :
    let n := a.toNat * 65536 + b.toNat * 256
    group4 (digit (n / 262144)) (digit (n / 4096 % 64)) (digit (n / 64 % 64)) eqChar
      = .ok [a, b] := by
  intro n
  have ha := a.isLt; have hb := b.isLt
  have hn : n < 2 ^ 24 := by omega
  have l0 : n / 262144 < 64 := by omega
  have l1 : n / 4096 % 64 < 64 := Nat.mod_lt _ (by decide)
  have l2 : n / 64 % 64 < 64 := Nat.mod_lt _ (by decide)
  have hv := combined_eq _ _ _ 0 l0 l1 l2 (by decide)
  simp only [group4, decodeChar_digit l0, decodeChar_digit l1, decodeChar_digit l2,
    decodeChar_eq, bind_ok, ne_eq, digit_ne l2, not_false_eq_true, if_true, not_true_eq_false,
    if_false]
  generalize ((BitVec.ofNat 32 (n / 262144) <<< 18) ||| (BitVec.ofNat 32 (n / 4096 % 64) <<< 12) |||
      (BitVec.ofNat 32 (n / 64 % 64) <<< 6) ||| BitVec.ofNat 32 0 : W) = v at hv
  have e0 : (v >>> 16).setWidth 8 = a := by
    apply BitVec.eq_of_toNat_eq
    rw [BitVec.toNat_setWidth, shift_toNat, hv]; omega
  have e1 : (v >>> 8).setWidth 8 = b := by
    apply BitVec.eq_of_toNat_eq
    rw [BitVec.toNat_setWidth, shift_toNat, hv]; omega
  rw [e0, e1]; rfl

theorem group_one (a : B) :
    let n := a.toNat * 65536
    group4 (digit (n / 262144)) (digit (n / 4096 % 64)) eqChar eqChar = .ok [a] := by
  intro n
  have ha := a.isLt
  have hn : n < 2 ^ 24 := by omega
  have l0 : n / 262144 < 64 := by omega
  have l1 : n / 4096 % 64 < 64 := Nat.mod_lt _ (by decide)
  have hv := combined_eq _ _ 0 0 l0 l1 (by decide) (by decide)
  simp only [group4, decodeChar_digit l0, decodeChar_digit l1,
    decodeChar_eq, bind_ok, ne_eq, not_true_eq_false, if_false]
  generalize ((BitVec.ofNat 32 (n / 262144) <<< 18) ||| (BitVec.ofNat 32 (n / 4096 % 64) <<< 12) |||
      (BitVec.ofNat 32 0 <<< 6) ||| BitVec.ofNat 32 0 : W) = v at hv
  have e0 : (v >>> 16).setWidth 8 = a := by
    apply BitVec.eq_of_toNat_eq
    rw [BitVec.toNat_setWidth, shift_toNat, hv]; omega
  rw [e0]; rfl

/-- What a padded text of digits looks like. -/
theorem pad_cons4 (c0 c1 c2 c3 : B) (rest : List B) :
    pad (c0 :: c1 :: c2 :: c3 :: rest) = c0 :: c1 :: c2 :: c3 :: pad rest := by
  have : (rest.length + 1 + 1 + 1 + 1) % 4 = rest.length % 4 := by omega
  simp [pad, this]

theorem decodeFrom_radix (p : List B) : ∀ (src : List B) (i : Nat) (acc : List B),
    p.drop i = pad (radix64 src) → decodeFrom p i acc = .ok (acc ++ src) := by
  intro src
  match src with
  | [] =>
    intro i acc h
    have h0 : p.drop i = [] := by rw [h]; rfl
    have : ¬ i < p.length := by
      have := List.drop_eq_nil_iff.mp h0; omega
    rw [decodeFrom, if_neg this]; simp
  | [a] =>
    intro i acc h
    have h1 : p.drop i = [digit (a.toNat * 65536 / 262144), digit (a.toNat * 65536 / 4096 % 64),
      eqChar, eqChar] := by rw [h]; rfl
    have hl := drop_length h1 (by simp)
    simp only [List.length_cons, List.length_nil] at hl
    rw [decodeFrom, if_pos (by omega), decodeGroup_eq h1, group_one]
    simp only
    rw [decodeFrom, if_neg (by omega)]
  | [a, b] =>
    intro i acc h
    have h1 : p.drop i = [digit ((a.toNat * 65536 + b.toNat * 256) / 262144),
      digit ((a.toNat * 65536 + b.toNat * 256) / 4096 % 64),
      digit ((a.toNat * 65536 + b.toNat * 256) / 64 % 64), eqChar] := by rw [h]; rfl
    have hl := drop_length h1 (by simp)
    simp only [List.length_cons, List.length_nil] at hl
    rw [decodeFrom, if_pos (by omega), decodeGroup_eq h1, group_two]
    simp only
    rw [decodeFrom, if_neg (by omega)]
  | a :: b :: c :: rest =>
    intro i acc h
    simp only [radix64] at h
    rw [pad_cons4] at h
    have hl := drop_length h (by simp)
    simp only [List.length_cons] at hl
    rw [decodeFrom, if_pos (by omega), decodeGroup_eq h, group_three]
    simp only
    have hd : p.drop (i + 4) = pad (radix64 rest) := by
      have : p.drop (i + 4) = (p.drop i).drop 4 := by rw [List.drop_drop]
      rw [this, h]; rfl
    rw [decodeFrom_radix p rest (i + 4) _ hd]
    simp
termination_by src => src.length

theorem decode_radix (src : List B) : decode (radix64 src) = .ok src := by
  rw [decode, decodeFrom_radix (pad (radix64 src)) src 0 [] rfl]
  simp

theorem radix64_injective {x y : List B} (h : radix64 x = radix64 y) : x = y := by
  have h1 := decode_radix x
  rw [h, decode_radix y] at h1
  injection h1 with h1
  exact h1.symm

theorem radix64_length16 {x : List B} (h : x.length = 16) : (radix64 x).length = 22 := by
  match x, h with
  | [a, b, c, d, e, f, g, i, j, k, l, m, n, o, p, q], _ => rfl

theorem radix64_length23 {x : List B} (h : x.length = 23) : (radix64 x).length = 31 := by
  match x, h with
  | [a, b, c, d, e, f, g, i, j, k, l, m, n, o, p, q, r, s, t, u, v, w, y], _ => rfl

end Nature.Bcrypt
