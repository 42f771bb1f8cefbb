import Verif.Blowfish.Schedule

/-!
# C105: the block cipher is Blowfish and decryption undoes encryption

`Sized c` says that the five vectors of a cipher have 18 and 256 words, `flat c` lists them in
the order of the specification.
-/

namespace Nature.Blowfish

open Spec (word bytes)

/-- Encrypting a block of eight bytes gives the bytes of what Blowfish gives, whatever the
destination held. -/
theorem C105_encrypt (c : Cipher) (h : Sized c) (dst : List B) (hd : dst.length = 8)
    (b0 b1 b2 b3 b4 b5 b6 b7 : B) :
    encrypt c dst [b0, b1, b2, b3, b4, b5, b6, b7]
      = some (bytes (Spec.encipher (flat c) (word b0 b1 b2 b3, word b4 b5 b6 b7)).1
          ++ bytes (Spec.encipher (flat c) (word b0 b1 b2 b3, word b4 b5 b6 b7)).2) := by
  simp only [encrypt, load_eq0, load_eq4, Option.bind_eq_bind, Option.bind_some,
    encryptBlock_eq h]
  exact store_eq hd _ _

/-- Decrypting likewise. -/
theorem C105_decrypt (c : Cipher) (h : Sized c) (dst : List B) (hd : dst.length = 8)
    (b0 b1 b2 b3 b4 b5 b6 b7 : B) :
    decrypt c dst [b0, b1, b2, b3, b4, b5, b6, b7]
      = some (bytes (Spec.decipher (flat c) (word b0 b1 b2 b3, word b4 b5 b6 b7)).1
          ++ bytes (Spec.decipher (flat c) (word b0 b1 b2 b3, word b4 b5 b6 b7)).2) := by
  simp only [decrypt, load_eq0, load_eq4, Option.bind_eq_bind, Option.bind_some,
    decryptBlock_eq h]
  exact store_eq hd _ _

/-- What was encrypted decrypts to what it was, and the other way round. -/
theorem C105_inverse (c : Cipher) (h : Sized c) (src dst dst' : List B) (hs : src.length = 8)
    (hd : dst.length = 8) (hd' : dst'.length = 8) :
    (∃ out, out.length = 8 ∧ encrypt c dst src = some out ∧ decrypt c dst' out = some src) ∧
    (∃ out, out.length = 8 ∧ decrypt c dst src = some out ∧ encrypt c dst' out = some src) := by
  obtain ⟨b0, b1, b2, b3, b4, b5, b6, b7, rfl⟩ := eight hs
  constructor
  · refine ⟨_, ?_, C105_encrypt c h dst hd .., ?_⟩
    · rfl
    · refine (C105_decrypt c h dst' hd' ..).trans ?_
      rw [word_bytes, word_bytes, decipher_encipher, bytes_word, bytes_word]
      rfl
  · refine ⟨_, ?_, C105_decrypt c h dst hd .., ?_⟩
    · rfl
    · refine (C105_encrypt c h dst' hd' ..).trans ?_
      rw [word_bytes, word_bytes, encipher_decipher, bytes_word, bytes_word]
      rfl

theorem init_sized {t : Tables} (hp : t.p.length = 18) (h0 : 256 ≤ t.s0.length)
    (h1 : 256 ≤ t.s1.length) (h2 : 256 ≤ t.s2.length) (h3 : 256 ≤ t.s3.length) :
    Sized (initCipher t) :=
  ⟨by simp [initCipher, hp], by simp [initCipher]; omega, by simp [initCipher]; omega,
    by simp [initCipher]; omega, by simp [initCipher]; omega⟩

/-- A new cipher holds the key schedule of Blowfish for keys of 1 to 56 bytes; other keys are
refused.  The tables of the code have 18 and 300 words. -/
theorem C105_schedule (t : Tables) (hp : t.p.length = 18) (h0 : 256 ≤ t.s0.length)
    (h1 : 256 ≤ t.s1.length) (h2 : 256 ≤ t.s2.length) (h3 : 256 ≤ t.s3.length) (key : List B) :
    (1 ≤ key.length ∧ key.length ≤ 56 →
      ∃ c, newCipher t key = .success c ∧ Sized c ∧
        flat c = Spec.expand (t.p ++ (t.s0.take 256 ++ (t.s1.take 256 ++ (t.s2.take 256 ++
          t.s3.take 256)))) key) ∧
    (¬ (1 ≤ key.length ∧ key.length ≤ 56) → newCipher t key = .invalidKeySize) := by
  constructor
  · intro hk
    obtain ⟨c, e, z, f⟩ := expandKey_eq (key := key) (by omega) (init_sized hp h0 h1 h2 h3)
    refine ⟨c, ?_, z, ?_⟩
    · simp only [newCipher, e]
      rw [if_neg (by omega)]
    · rw [f]
      simp only [flat, initCipher, List.take_of_length_le (show t.p.length ≤ 18 by omega)]
  · intro hk
    rw [newCipher, if_pos (by omega)]

/-- With a salt the schedule is the salted one, and long keys are accepted. -/
theorem C105_salted (t : Tables) (hp : t.p.length = 18) (h0 : 256 ≤ t.s0.length)
    (h1 : 256 ≤ t.s1.length) (h2 : 256 ≤ t.s2.length) (h3 : 256 ≤ t.s3.length)
    (key salt : List B) (hs : 1 ≤ salt.length) :
    (1 ≤ key.length →
      ∃ c, newSaltedCipher t key salt = .success c ∧ Sized c ∧
        flat c = Spec.expandSalted (t.p ++ (t.s0.take 256 ++ (t.s1.take 256 ++ (t.s2.take 256 ++
          t.s3.take 256)))) key salt) ∧
    (key = [] → newSaltedCipher t key salt = .invalidKeySize) := by
  constructor
  · intro hk
    obtain ⟨c, e, z, f⟩ := expandKeyWithSalt_eq (key := key) (salt := salt) (by omega) (by omega)
      (init_sized hp h0 h1 h2 h3)
    refine ⟨c, ?_, z, ?_⟩
    · simp only [newSaltedCipher, e]
      rw [if_neg (by omega), if_neg (by omega)]
    · rw [f]
      simp only [flat, initCipher, List.take_of_length_le (show t.p.length ≤ 18 by omega)]
  · intro hk
    subst hk
    rw [newSaltedCipher, if_neg (by omega), if_pos (by simp)]

/-- Expanding a key in place, which is what costs the time of a password hash. -/
theorem C105_expand (c : Cipher) (h : Sized c) (key : List B) (hk : 1 ≤ key.length) :
    ∃ c', expandKey key c = some c' ∧ Sized c' ∧ flat c' = Spec.expand (flat c) key :=
  expandKey_eq hk h

/-! ## A case that meets the hypotheses -/

/-- Boxes that are not constant. -/
def demoBox (m : Nat) : List W := (List.range 256).map fun i => BitVec.ofNat 32 (i * i * m + m)

/-- A cipher with them. -/
def demo : Cipher :=
  { p := (List.range 18).map fun i => BitVec.ofNat 32 (0x9E3779B9 * (i + 1)),
    s0 := demoBox 0x01010101, s1 := demoBox 0x10203, s2 := demoBox 77, s3 := demoBox 0xFFFFFF }

example : Sized demo :=
  ⟨by simp [demo], by simp [demo, demoBox], by simp [demo, demoBox], by simp [demo, demoBox],
    by simp [demo, demoBox]⟩

set_option maxRecDepth 10000 in
/-- Encrypting changes the block, decrypting brings it back. -/
example : (encrypt demo (List.replicate 8 0) [1, 2, 3, 4, 5, 6, 7, 8]).bind
      (fun out => if out = [1, 2, 3, 4, 5, 6, 7, 8] then none else decrypt demo (List.replicate 8 0) out)
    = some [1, 2, 3, 4, 5, 6, 7, 8] := by decide +kernel

/-- Tables of the sizes in the code. -/
example : ∃ t : Tables, t.p.length = 18 ∧ 256 ≤ t.s0.length ∧ 256 ≤ t.s1.length ∧
    256 ≤ t.s2.length ∧ 256 ≤ t.s3.length :=
  ⟨⟨demo.p, demo.s0 ++ List.replicate 44 0, demo.s1 ++ List.replicate 44 0,
    demo.s2 ++ List.replicate 44 0, demo.s3 ++ List.replicate 44 0⟩,
    by simp [demo, demoBox]⟩

end Nature.Blowfish
