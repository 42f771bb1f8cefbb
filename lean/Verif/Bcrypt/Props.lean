import Verif.Bcrypt.Text

/-!
# C106: a password verifies against its own hash

`TablesOk t` says that the tables of initial values have the sizes of the code, `init t` is the
state of the specification they stand for.
-/

namespace Nature.Bcrypt

open Nature.Blowfish (W B Tables)

/-- The text that `hash` returns is the one bcrypt prescribes, for a salt of 16 bytes; costs
below 4 mean 10. -/
theorem C106_hash (t : Tables) (ht : TablesOk t) (rand : Nat → Nat → Nat) (now : Nat)
    (password : List B) (hp : password.length ≤ 72) (cost : Int) (hc : cost ≤ 31) :
    ∃ salt : List B, salt.length = 16 ∧
      hash t rand now password cost
        = .ok (Spec.text (init t) (if cost < 4 then 10 else cost.toNat) salt password) := by
  have hl : (generateSalt rand now).length = 16 := by simp [generateSalt]
  refine ⟨generateSalt rand now, hl, ?_⟩
  obtain ⟨n, hn, h4, h31⟩ : ∃ n : Nat, (if cost < 4 then 10 else cost) = (n : Int) ∧ 4 ≤ n ∧ n ≤ 31 := by
    split
    · exact ⟨10, rfl, by omega, by omega⟩
    · exact ⟨cost.toNat, by omega, by omega, by omega⟩
  have hn' : (if cost < 4 then 10 else cost.toNat) = n := by
    split at hn
    · rw [if_pos (by assumption)]; omega
    · rw [if_neg (by assumption)]; omega
  have hk : checkCost (n : Int) = .ok () := by rw [checkCost, if_neg (by omega)]
  rw [hn']
  simp only [hash, newFromPassword, if_neg (show ¬ password.length > 72 by omega), hn, hk, bind_ok,
    encode_eq, bcrypt_eq ht password (generateSalt rand now) (by omega) (decode_radix _) h31]
  rw [print_text h4 h31]

/-- Long passwords and large costs are refused. -/
theorem C106_refused (t : Tables) (rand : Nat → Nat → Nat) (now : Nat) (password : List B)
    (cost : Int) :
    (72 < password.length → hash t rand now password cost = .error .tooLong) ∧
    (password.length ≤ 72 → 31 < cost → hash t rand now password cost = .error .invalidCost) := by
  constructor
  · intro h
    rw [hash, newFromPassword, if_pos (by omega)]; rfl
  · intro h hc
    have hk : checkCost cost = .error .invalidCost := by rw [checkCost, if_pos (by omega)]
    rw [hash, newFromPassword, if_neg (by omega), if_neg (by omega)]
    simp only [hk, bind_error]

/-- Checking a password against the text of a hash succeeds exactly if the two passwords have
the same digest of 23 bytes under the salt and cost in the text; otherwise it reports that. -/
theorem C106_verify (t : Tables) (ht : TablesOk t) (cost : Nat) (h4 : 4 ≤ cost) (h31 : cost ≤ 31)
    (salt : List B) (hs : salt.length = 16) (password guess : List B) :
    verify t (Spec.text (init t) cost salt password) guess
      = if Spec.digest (init t) cost salt guess = Spec.digest (init t) cost salt password
        then .ok () else .error .notVerify := by
  simp only [verify, parse_text h4 h31 hs, bind_ok,
    bcrypt_eq ht guess salt (by omega) (decode_radix salt) h31, compare_eq]
  rw [print_text h4 h31, print_text h4 h31]
  by_cases h : Spec.digest (init t) cost salt guess = Spec.digest (init t) cost salt password
  · simp only [Spec.text, h]; simp
  · have hne : Spec.text (init t) cost salt password ≠ Spec.text (init t) cost salt guess := by
      intro e
      apply h
      have e' := List.append_cancel_left e
      exact (radix64_injective e').symm
    simp [h, hne]

/-- A password verifies against the hash made from it, at any later time. -/
theorem C106_roundtrip (t : Tables) (ht : TablesOk t) (rand : Nat → Nat → Nat) (now : Nat)
    (password : List B) (hp : password.length ≤ 72) (c : Int) (hc : c ≤ 31) :
    ∃ hashed, hash t rand now password c = .ok hashed ∧ verify t hashed password = .ok () ∧
      cost hashed = .ok (if c < 4 then 10 else c) := by
  obtain ⟨salt, hs, e⟩ := C106_hash t ht rand now password hp c hc
  obtain ⟨n, hn, h4, h31⟩ : ∃ n : Nat, (if c < 4 then 10 else c.toNat) = n ∧ 4 ≤ n ∧ n ≤ 31 := by
    refine ⟨_, rfl, ?_, ?_⟩ <;> split <;> omega
  rw [hn] at e
  refine ⟨_, e, ?_, ?_⟩
  · rw [C106_verify t ht n h4 h31 salt hs, if_pos rfl]
  · have : (if c < 4 then 10 else c) = (n : Int) := by
      split at hn
      · rw [if_pos (by assumption)]; omega
      · rw [if_neg (by assumption)]; omega
    rw [cost, parse_text h4 h31 hs, this]
    rfl

/-- The property at full strength would be that other passwords do not verify.  They do not
unless the digests collide; this is the half that can be said without cryptography. -/
theorem C106_other_partial (t : Tables) (ht : TablesOk t) (cost : Nat) (h4 : 4 ≤ cost)
    (h31 : cost ≤ 31) (salt : List B) (hs : salt.length = 16) (password guess : List B)
    (h : verify t (Spec.text (init t) cost salt password) guess = .ok ()) :
    Spec.digest (init t) cost salt guess = Spec.digest (init t) cost salt password := by
  rw [C106_verify t ht cost h4 h31 salt hs] at h
  by_cases e : Spec.digest (init t) cost salt guess = Spec.digest (init t) cost salt password
  · exact e
  · rw [if_neg e] at h; cases h

/-- Only `hash` limits the length: any continuation of a password of 72 bytes verifies. -/
theorem C106_long_counterexample (t : Tables) (ht : TablesOk t) (cost : Nat) (h4 : 4 ≤ cost)
    (h31 : cost ≤ 31) (salt : List B) (hs : salt.length = 16) (password more : List B)
    (hp : password.length = 72) :
    verify t (Spec.text (init t) cost salt password) (password ++ more) = .ok () := by
  rw [C106_verify t ht cost h4 h31 salt hs, if_pos]
  apply digest_congr
  intro i hi
  rw [List.append_assoc]
  exact cyclic_prefix hp _ _ hi

/-- The key is the password with a zero byte, repeated: a password that repeats itself after a
zero byte has the same hash. -/
theorem C106_zero_counterexample (t : Tables) (ht : TablesOk t) (cost : Nat) (h4 : 4 ≤ cost)
    (h31 : cost ≤ 31) (salt : List B) (hs : salt.length = 16) (password : List B) :
    verify t (Spec.text (init t) cost salt password) (password ++ 0 :: password) = .ok () := by
  rw [C106_verify t ht cost h4 h31 salt hs, if_pos]
  apply digest_congr
  intro i _
  have e : password ++ 0 :: password ++ [0] = (password ++ [0]) ++ (password ++ [0]) := by simp
  rw [e]
  exact cyclic_double _ (by simp) i

/-- The salt is a function of the second of the clock: two hashes of one password made in the
same second are the same text, whatever the generator of the C library. -/
theorem C106_salt_counterexample (t : Tables) (ht : TablesOk t) (rand : Nat → Nat → Nat) (now : Nat)
    (p q : List B) (hp : p.length ≤ 72) (hq : q.length ≤ 72) :
    ∃ salt, salt.length = 16 ∧
      hash t rand now p 10 = .ok (Spec.text (init t) 10 salt p) ∧
      hash t rand now q 10 = .ok (Spec.text (init t) 10 salt q) := by
  have hl : (generateSalt rand now).length = 16 := by simp [generateSalt]
  have key : ∀ x : List B, x.length ≤ 72 →
      hash t rand now x 10 = .ok (Spec.text (init t) 10 (generateSalt rand now) x) := by
    intro x hx
    have hk : checkCost 10 = .ok () := rfl
    have hb := bcrypt_eq ht x (generateSalt rand now) (by omega) (decode_radix _)
      (cost := 10) (by omega)
    have hpr := print_text (T := init t) (cost := 10) (by omega) (by omega) (generateSalt rand now) x
    simp only [hash, newFromPassword, if_neg (show ¬ x.length > 72 by omega), bind_ok, encode_eq]
    rw [show (if (10 : Int) < 4 then 10 else 10) = (10 : Int) from rfl, hk]
    simp only [bind_ok]
    rw [show (10 : Int) = ((10 : Nat) : Int) from rfl, hb]
    simp only [bind_ok]
    rw [hpr]
  exact ⟨generateSalt rand now, hl, key p hp, key q hq⟩

/-! ## A case that meets the hypotheses -/

example : ∃ t : Tables, TablesOk t :=
  ⟨⟨Blowfish.demo.p, Blowfish.demo.s0, Blowfish.demo.s1, Blowfish.demo.s2, Blowfish.demo.s3⟩,
    by simp [Blowfish.demo], by simp [Blowfish.demo, Blowfish.demoBox],
    by simp [Blowfish.demo, Blowfish.demoBox], by simp [Blowfish.demo, Blowfish.demoBox],
    by simp [Blowfish.demo, Blowfish.demoBox]⟩

/-- Sixteen bytes as text. -/
example : Spec.radix64 [0, 1, 2, 3, 4, 5, 6, 7, 8, 9, 10, 11, 12, 13, 14, 255]
    = Spec.ascii "..CA.uOD/eaGAOmJB.yM9u" := by decide +kernel

end Nature.Bcrypt
