import Verif.Blowfish.Spec
import Verif.Blowfish.Model

/-! # The rounds of the model are those of the specification -/

namespace Nature.Blowfish

open Spec (P S F rounds block encipher decipher word bytes)

/-- The vectors of a cipher have the sizes of its comment, blowfish.n:14-18. -/
structure Sized (c : Cipher) : Prop where
  p : c.p.length = 18
  s0 : c.s0.length = 256
  s1 : c.s1.length = 256
  s2 : c.s2.length = 256
  s3 : c.s3.length = 256

/-- The words of a cipher in the order of the specification. -/
def flat (c : Cipher) : List W := c.p ++ (c.s0 ++ (c.s1 ++ (c.s2 ++ c.s3)))

theorem flat_length {c : Cipher} (h : Sized c) : (flat c).length = 1042 := by
  simp [flat, h.p, h.s0, h.s1, h.s2, h.s3]

theorem rd_some {v : List W} {i : Nat} (h : i < v.length) : rd v i = some (v.getD i 0) := by
  simp [rd, List.getD, h]

theorem flat_P {c : Cipher} (h : Sized c) {i : Nat} (hi : i < 18) :
    P (flat c) i = c.p.getD i 0 := by
  have := h.p
  simp only [P, flat, List.getD]
  rw [List.getElem?_append_left (by omega)]

theorem flat_S0 {c : Cipher} (h : Sized c) {j : Nat} (hj : j < 256) :
    S (flat c) 0 j = c.s0.getD j 0 := by
  have := h.p; have := h.s0
  simp only [S, flat, List.getD]
  rw [List.getElem?_append_right (by omega), List.getElem?_append_left (by omega)]
  congr 3; omega

theorem flat_S1 {c : Cipher} (h : Sized c) {j : Nat} (hj : j < 256) :
    S (flat c) 1 j = c.s1.getD j 0 := by
  have := h.p; have := h.s0; have := h.s1
  simp only [S, flat, List.getD]
  rw [List.getElem?_append_right (by omega), List.getElem?_append_right (by omega),
    List.getElem?_append_left (by omega)]
  congr 3; omega

theorem flat_S2 {c : Cipher} (h : Sized c) {j : Nat} (hj : j < 256) :
    S (flat c) 2 j = c.s2.getD j 0 := by
  have := h.p; have := h.s0; have := h.s1; have := h.s2
  simp only [S, flat, List.getD]
  rw [List.getElem?_append_right (by omega), List.getElem?_append_right (by omega),
    List.getElem?_append_right (by omega), List.getElem?_append_left (by omega)]
  congr 3; omega

theorem flat_S3 {c : Cipher} (h : Sized c) {j : Nat} (hj : j < 256) :
    S (flat c) 3 j = c.s3.getD j 0 := by
  have := h.p; have := h.s0; have := h.s1; have := h.s2; have := h.s3
  simp only [S, flat, List.getD]
  rw [List.getElem?_append_right (by omega), List.getElem?_append_right (by omega),
    List.getElem?_append_right (by omega), List.getElem?_append_right (by omega)]
  congr 3; omega

theorem and_ff (x : W) : (x &&& 0xFF#32).toNat = x.toNat % 256 := by
  rw [BitVec.toNat_and]
  exact Nat.and_two_pow_sub_one_eq_mod x.toNat 8

theorem shift_toNat (x : W) (k : Nat) : (x >>> k).toNat = x.toNat / 2 ^ k := by
  rw [BitVec.toNat_ushiftRight, Nat.shiftRight_eq_div_pow]

theorem mix_eq {c : Cipher} (h : Sized c) (x : W) : mix c x = some (F (flat c) x) := by
  have hx := x.isLt
  have e : x.toNat / 2 ^ 24 % 256 = x.toNat / 2 ^ 24 := Nat.mod_eq_of_lt (by omega)
  have l0 : x.toNat / 2 ^ 24 < 256 := by omega
  have l1 : x.toNat / 2 ^ 16 % 256 < 256 := Nat.mod_lt _ (by decide)
  have l2 : x.toNat / 2 ^ 8 % 256 < 256 := Nat.mod_lt _ (by decide)
  have l3 : x.toNat % 256 < 256 := Nat.mod_lt _ (by decide)
  simp only [mix, and_ff, shift_toNat, e]
  rw [rd_some (by rw [h.s0]; exact l0), rd_some (by rw [h.s1]; exact l1),
    rd_some (by rw [h.s2]; exact l2), rd_some (by rw [h.s3]; exact l3)]
  simp only [F, flat_S0 h l0, flat_S1 h l1, flat_S2 h l2, flat_S3 h l3]
  rfl

theorem half_eq {c : Cipher} (h : Sized c) (x y : W) {i : Nat} (hi : i < 18) :
    half c x y i = some (F (flat c) x ^^^ y ^^^ P (flat c) i) := by
  simp only [half, mix_eq h, rd_some (h.p ▸ hi : i < c.p.length), flat_P h hi, Option.bind_eq_bind,
    Option.bind_some]
  congr 1
  rw [← BitVec.xor_assoc, BitVec.xor_comm y]

/-- The left half after `n` rounds, with the next subkey added. -/
def mid (T : List W) (k : Nat → W) (x : W × W) (n : Nat) : W := (rounds T k n x).1 ^^^ k n

theorem mid_zero (T : List W) (k : Nat → W) (x : W × W) : mid T k x 0 = x.1 ^^^ k 0 := rfl

theorem mid_one (T : List W) (k : Nat → W) (x : W × W) :
    mid T k x 1 = F T (mid T k x 0) ^^^ x.2 ^^^ k 1 := rfl

theorem mid_succ (T : List W) (k : Nat → W) (x : W × W) (n : Nat) :
    mid T k x (n + 2) = F T (mid T k x (n + 1)) ^^^ mid T k x n ^^^ k (n + 2) := rfl

theorem block_mid (T : List W) (k : Nat → W) (x : W × W) :
    block T k x = (mid T k x 15 ^^^ k 17, mid T k x 16) := rfl

theorem encryptBlock_eq {c : Cipher} (h : Sized c) (l r : W) :
    encryptBlock l r c = some (encipher (flat c) (l, r)) := by
  have h0 : rd c.p 0 = some (P (flat c) 0) := by
    rw [rd_some (by rw [h.p]; decide), flat_P h (by decide)]
  have h17 : rd c.p 17 = some (P (flat c) 17) := by
    rw [rd_some (by rw [h.p]; decide), flat_P h (by decide)]
  have e0 : l ^^^ P (flat c) 0 = mid (flat c) (P (flat c)) (l, r) 0 := rfl
  have e1 : half c (mid (flat c) (P (flat c)) (l, r) 0) r 1
      = some (mid (flat c) (P (flat c)) (l, r) 1) := half_eq h _ _ (by decide)
  have en : ∀ n, n + 2 < 18 → half c (mid (flat c) (P (flat c)) (l, r) (n + 1))
      (mid (flat c) (P (flat c)) (l, r) n) (n + 2)
      = some (mid (flat c) (P (flat c)) (l, r) (n + 2)) := fun n hn => half_eq h _ _ hn
  simp only [encryptBlock, h0, h17, Option.bind_eq_bind, Option.bind_some, e0, e1,
    en 0 (by decide), en 1 (by decide), en 2 (by decide), en 3 (by decide), en 4 (by decide),
    en 5 (by decide), en 6 (by decide), en 7 (by decide), en 8 (by decide), en 9 (by decide),
    en 10 (by decide), en 11 (by decide), en 12 (by decide), en 13 (by decide),
    en 14 (by decide), Nat.zero_add, Nat.reduceAdd, encipher, block_mid]

theorem decryptBlock_eq {c : Cipher} (h : Sized c) (l r : W) :
    decryptBlock l r c = some (decipher (flat c) (l, r)) := by
  have h0 : rd c.p 0 = some (P (flat c) 0) := by
    rw [rd_some (by rw [h.p]; decide), flat_P h (by decide)]
  have h17 : rd c.p 17 = some (P (flat c) 17) := by
    rw [rd_some (by rw [h.p]; decide), flat_P h (by decide)]
  have e0 : l ^^^ P (flat c) 17 = mid (flat c) (fun i => P (flat c) (17 - i)) (l, r) 0 := rfl
  have e1 : half c (mid (flat c) (fun i => P (flat c) (17 - i)) (l, r) 0) r 16
      = some (mid (flat c) (fun i => P (flat c) (17 - i)) (l, r) 1) := half_eq h _ _ (by decide)
  have en : ∀ n, n + 2 < 18 → half c (mid (flat c) (fun i => P (flat c) (17 - i)) (l, r) (n + 1))
      (mid (flat c) (fun i => P (flat c) (17 - i)) (l, r) n) (17 - (n + 2))
      = some (mid (flat c) (fun i => P (flat c) (17 - i)) (l, r) (n + 2)) :=
    fun n hn => half_eq h _ _ (by omega)
  simp only [decryptBlock, h0, h17, Option.bind_eq_bind, Option.bind_some, e0, e1,
    en 0 (by decide), en 1 (by decide), en 2 (by decide), en 3 (by decide), en 4 (by decide),
    en 5 (by decide), en 6 (by decide), en 7 (by decide), en 8 (by decide), en 9 (by decide),
    en 10 (by decide), en 11 (by decide), en 12 (by decide), en 13 (by decide),
    en 14 (by decide), Nat.zero_add, Nat.reduceAdd, Nat.reduceSub, decipher, block_mid]

theorem xor_cancel (a b : W) : a ^^^ b ^^^ b = a := by
  rw [BitVec.xor_assoc, BitVec.xor_self, BitVec.xor_zero]

theorem rounds_succ (T : List W) (k : Nat → W) (n : Nat) (x : W × W) :
    rounds T k (n + 1) x = (F T ((rounds T k n x).1 ^^^ k n) ^^^ (rounds T k n x).2,
      (rounds T k n x).1 ^^^ k n) := rfl

/-- Running the rounds with the subkeys in the opposite order goes back. -/
theorem block_inverse (T : List W) (k k' : Nat → W) (hk : ∀ i, i ≤ 17 → k' i = k (17 - i))
    (x : W × W) : block T k' (block T k x) = x := by
  have step : ∀ n, n ≤ 15 → rounds T k' n (block T k x)
      = (mid T k x (15 - n) ^^^ k' n, mid T k x (16 - n)) := by
    intro n
    induction n with
    | zero => intro _; rw [hk 0 (by omega)]; rfl
    | succ n ih =>
      intro hn
      have h2 : rounds T k' (n + 1) (block T k x)
          = (F T (mid T k x (15 - n)) ^^^ mid T k x (16 - n), mid T k x (15 - n)) := by
        simp only [rounds, ih (by omega), xor_cancel]
      obtain ⟨m, hm⟩ : ∃ m, 14 - n = m := ⟨_, rfl⟩
      have a1 : 15 - n = m + 1 := by omega
      have a2 : 16 - n = m + 2 := by omega
      have a3 : 15 - (n + 1) = m := by omega
      have a4 : 16 - (n + 1) = m + 1 := by omega
      rw [h2, a1, a2, a3, a4, mid_succ, hk (n + 1) (by omega)]
      have a5 : 17 - (n + 1) = m + 2 := by omega
      rw [a5, BitVec.xor_assoc, ← BitVec.xor_assoc (F T (mid T k x (m + 1))), BitVec.xor_self,
        BitVec.zero_xor]
  have h15 := step 15 (by omega)
  have h16 : rounds T k' 16 (block T k x) = (x.2 ^^^ k 1, mid T k x 0) := by
    have : rounds T k' 16 (block T k x)
        = (F T (mid T k x 0) ^^^ mid T k x 1, mid T k x 0) := by
      rw [rounds_succ, h15]
      simp only [xor_cancel, Nat.sub_self, Nat.reduceSub]
    rw [this, mid_one, BitVec.xor_assoc, ← BitVec.xor_assoc (F T (mid T k x 0)),
      BitVec.xor_self, BitVec.zero_xor]
  show ((rounds T k' 16 (block T k x)).2 ^^^ k' 17, (rounds T k' 16 (block T k x)).1 ^^^ k' 16) = x
  rw [h16, hk 17 (by omega), hk 16 (by omega), mid_zero]
  simp only [Nat.reduceSub, Nat.sub_self, xor_cancel]

theorem decipher_encipher (T : List W) (x : W × W) : decipher T (encipher T x) = x :=
  block_inverse T _ _ (fun _ _ => rfl) x

theorem encipher_decipher (T : List W) (x : W × W) : encipher T (decipher T x) = x :=
  block_inverse T _ _ (fun i hi => by rw [show 17 - (17 - i) = i by omega]) x

/-! ## Bytes and words -/

theorem or_add (x y k : Nat) (h : y < 2 ^ k) : x * 2 ^ k ||| y = x * 2 ^ k + y := by
  rw [Nat.mul_comm x, Nat.two_pow_add_eq_or_of_lt h]

theorem shifted (x k : Nat) (h : x < 2 ^ 8) (hk : k ≤ 24) :
    x % 2 ^ 32 * 2 ^ k % 2 ^ 32 = x * 2 ^ k := by
  have h1 : x * 2 ^ k ≤ x * 2 ^ 24 := Nat.mul_le_mul_left _ (Nat.pow_le_pow_right (by decide) hk)
  rw [Nat.mod_eq_of_lt (show x < 2 ^ 32 by omega)]
  exact Nat.mod_eq_of_lt (by omega)

theorem horner (a b : Nat) : a * 2 ^ 24 + b * 2 ^ 16 = (a * 2 ^ 8 + b) * 2 ^ 16 := by
  rw [Nat.add_mul, Nat.mul_assoc, ← Nat.pow_add]

theorem horner' (a b c : Nat) : (a * 2 ^ 8 + b) * 2 ^ 16 + c * 2 ^ 8
    = (a * 2 ^ 16 + b * 2 ^ 8 + c) * 2 ^ 8 := by
  simp only [Nat.add_mul, Nat.mul_assoc, ← Nat.pow_add]

theorem load_word (a b c d : B) :
    (a.setWidth 32 <<< 24) ||| (b.setWidth 32 <<< 16) ||| (c.setWidth 32 <<< 8) |||
    d.setWidth 32 = word a b c d := by
  apply BitVec.eq_of_toNat_eq
  have ha := a.isLt; have hb := b.isLt; have hc := c.isLt; have hd := d.isLt
  simp only [BitVec.toNat_or, BitVec.toNat_shiftLeft, BitVec.toNat_setWidth, word,
    BitVec.toNat_ofNat, Nat.shiftLeft_eq]
  have e4 : d.toNat % 2 ^ 32 = d.toNat := Nat.mod_eq_of_lt (by omega)
  rw [shifted _ 24 ha (by decide), shifted _ 16 hb (by decide), shifted _ 8 hc (by decide), e4,
    or_add _ _ 24 (by omega),
    horner, or_add _ _ 16 (by omega), horner', or_add _ _ 8 (by omega)]
  omega

theorem bytes_word (a b c d : B) : bytes (word a b c d) = [a, b, c, d] := by
  have ha := a.isLt; have hb := b.isLt; have hc := c.isLt; have hd := d.isLt
  have hw : (word a b c d).toNat
      = a.toNat * 2 ^ 24 + b.toNat * 2 ^ 16 + c.toNat * 2 ^ 8 + d.toNat := by
    simp only [word, BitVec.toNat_ofNat]; omega
  simp only [bytes, hw]
  congr 1
  · apply BitVec.eq_of_toNat_eq; simp only [BitVec.toNat_ofNat]; omega
  congr 1
  · apply BitVec.eq_of_toNat_eq; simp only [BitVec.toNat_ofNat]; omega
  congr 1
  · apply BitVec.eq_of_toNat_eq; simp only [BitVec.toNat_ofNat]; omega
  congr 1
  apply BitVec.eq_of_toNat_eq; simp only [BitVec.toNat_ofNat]; omega

/-- The word made of the four bytes of a word is that word. -/
theorem word_bytes (w : W) :
    word (BitVec.ofNat 8 (w.toNat / 2 ^ 24)) (BitVec.ofNat 8 (w.toNat / 2 ^ 16))
      (BitVec.ofNat 8 (w.toNat / 2 ^ 8)) (BitVec.ofNat 8 w.toNat) = w := by
  have hw := w.isLt
  apply BitVec.eq_of_toNat_eq
  simp only [word, BitVec.toNat_ofNat]; omega

theorem byte_of_shift (w : W) (k : Nat) :
    (w >>> k).setWidth 8 = BitVec.ofNat 8 (w.toNat / 2 ^ k) := by
  apply BitVec.eq_of_toNat_eq
  simp only [BitVec.toNat_setWidth, shift_toNat, BitVec.toNat_ofNat]

theorem byte_of (w : W) : w.setWidth 8 = BitVec.ofNat 8 w.toNat := by
  apply BitVec.eq_of_toNat_eq
  simp only [BitVec.toNat_setWidth, BitVec.toNat_ofNat]

theorem load_eq0 (a b c d e f g h : B) :
    load [a, b, c, d, e, f, g, h] 0 = some (word a b c d) := by
  simp only [load, rd, List.getElem?_cons_zero, List.getElem?_cons_succ, Option.bind_eq_bind,
    Option.bind_some, Nat.zero_add, load_word]

theorem load_eq4 (a b c d e f g h : B) :
    load [a, b, c, d, e, f, g, h] 4 = some (word e f g h) := by
  show some _ = _
  rw [load_word]

theorem eight {α : Type} {l : List α} (h : l.length = 8) :
    ∃ a b c d e f g i, l = [a, b, c, d, e, f, g, i] := by
  match l, h with
  | [a, b, c, d, e, f, g, i], _ => exact ⟨a, b, c, d, e, f, g, i, rfl⟩

theorem store_eq {dst : List B} (hd : dst.length = 8) (l r : W) :
    ((store dst 0 l).bind fun d => store d 4 r) = some (bytes l ++ bytes r) := by
  obtain ⟨a, b, c, d, e, f, g, i, rfl⟩ := eight hd
  show some _ = some _
  simp only [byte_of, shift_toNat, bytes]
  rfl

end Nature.Blowfish
