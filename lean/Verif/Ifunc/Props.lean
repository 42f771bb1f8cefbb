import Verif.Ifunc.Model

/-!
# C115: a stub jumps to the function that was chosen
-/

namespace Nature.Ifunc

open Spec (slot Reaches Placed slotAmd64 slotArm64 slotRiscv64 word field signed address)

theorem word_bytes (v : Nat) (h : v < 2 ^ 32) :
    word (v % 256) (v / 2 ^ 8 % 256) (v / 2 ^ 16 % 256) (v / 2 ^ 24 % 256) = v := by
  unfold word; omega

theorem signed_mod (d : Int) (n : Nat) (h1 : -(2 ^ n : Int) ≤ d) (h2 : d < 2 ^ n) :
    signed (d % 2 ^ (n + 1)).toNat (n + 1) = d := by
  have hp : (2 : Int) ^ (n + 1) = 2 * 2 ^ n := by rw [Int.pow_succ]; omega
  have hq : (((2 ^ n : Nat)) : Int) = (2 : Int) ^ n := by simp
  unfold signed
  simp only [Nat.add_sub_cancel]
  generalize hN : (2 ^ n : Nat) = N at hq
  rw [← hq] at h1 h2
  rw [hp, ← hq]
  by_cases hd : 0 ≤ d
  · have e : d % (2 * (N : Int)) = d := Int.emod_eq_of_lt hd (by omega)
    rw [e, if_pos (by omega)]
    omega
  · have e : d % (2 * (N : Int)) = d + 2 * N := by
      rw [← Int.add_emod_right, Int.emod_eq_of_lt (by omega) (by omega)]
    rw [e, if_neg (by omega)]
    omega

theorem address_eq (v : Int) (n : Nat) (h : v = n) (hn : n < 2 ^ 64) : address v = n := by
  subst h; unfold address; omega

theorem amd64_slot (entry got : Nat) (code : List Nat) (hg : got < 2 ^ 64)
    (h : encodeAmd64 entry got = .ok code) : slotAmd64 entry code = some got := by
  have main : ∀ d : Int, -(2 ^ 31 : Int) ≤ d → d < 2 ^ 31 → (got : Int) = entry + 10 + d →
      slotAmd64 entry ([0xf3, 0x0f, 0x1e, 0xfa, 0xff, 0x25] ++ writeU32 (d % 2 ^ 32).toNat ++
        [0xcc, 0xcc, 0xcc, 0xcc, 0xcc, 0xcc]) = some got := by
    intro d h1 h2 h3
    have hw := word_bytes (d % 2 ^ 32).toNat (by omega)
    simp only [writeU32, List.cons_append, List.nil_append, slotAmd64]
    rw [hw, signed_mod d 31 h1 h2, address_eq _ got h3.symm hg]
  unfold encodeAmd64 at h
  split at h
  · simp at h
  · simp only at h
    by_cases hc : got ≥ entry + 10
    · rw [if_pos hc] at h
      by_cases hm : got - (entry + 10) > 2 ^ 31 - 1
      · rw [if_pos hm] at h; simp at h
      · rw [if_neg hm] at h
        obtain rfl := Except.ok.inj h
        exact main _ (by omega) (by omega) (by omega)
    · rw [if_neg hc] at h
      by_cases hm : entry + 10 - got > 0x80000000
      · rw [if_pos hm] at h; simp at h
      · rw [if_neg hm] at h
        obtain rfl := Except.ok.inj h
        exact main _ (by omega) (by omega) (by omega)

theorem arm64_fields (p o : Nat) (hp : p < 2 ^ 21) (ho : o < 2 ^ 12) :
    (0x90000010 + p % 4 * 2 ^ 29 + p / 4 % 2 ^ 19 * 2 ^ 5 < 2 ^ 32) ∧ (0xf9400211 + o / 8 * 2 ^ 10 < 2 ^ 32) ∧
    field (0x90000010 + p % 4 * 2 ^ 29 + p / 4 % 2 ^ 19 * 2 ^ 5) 31 1 = 1 ∧
    field (0x90000010 + p % 4 * 2 ^ 29 + p / 4 % 2 ^ 19 * 2 ^ 5) 24 5 = 0x10 ∧
    field (0x90000010 + p % 4 * 2 ^ 29 + p / 4 % 2 ^ 19 * 2 ^ 5) 0 5 = 16 ∧
    field (0x90000010 + p % 4 * 2 ^ 29 + p / 4 % 2 ^ 19 * 2 ^ 5) 5 19 = p / 4 ∧
    field (0x90000010 + p % 4 * 2 ^ 29 + p / 4 % 2 ^ 19 * 2 ^ 5) 29 2 = p % 4 ∧
    field (0xf9400211 + o / 8 * 2 ^ 10) 22 10 = 0x3e5 ∧ field (0xf9400211 + o / 8 * 2 ^ 10) 5 5 = 16 ∧
    field (0xf9400211 + o / 8 * 2 ^ 10) 0 5 = 17 ∧ field (0xf9400211 + o / 8 * 2 ^ 10) 10 12 = o / 8 := by
  unfold field
  have h1 : p / 4 % 2 ^ 19 = p / 4 := by omega
  rw [h1]
  have h2 : p % 4 < 4 := by omega
  have h3 : p / 4 < 2 ^ 19 := by omega
  have h4 : o / 8 < 2 ^ 9 := by omega
  generalize p % 4 = a at *
  generalize p / 4 = b at *
  generalize o / 8 = c at *
  refine ⟨?_, ?_, ?_, ?_, ?_, ?_, ?_, ?_, ?_, ?_, ?_⟩ <;> omega

theorem arm64_slot (entry got : Nat) (code : List Nat) (hg : got < 2 ^ 64)
    (h : encodeArm64 entry got = .ok code) : slotArm64 entry code = some got := by
  unfold encodeArm64 at h
  split at h
  · simp at h
  · rename_i ha
    have hg8 : got % 8 = 0 := by omega
    have main : ∀ d : Int, -(2 ^ 20 : Int) ≤ d → d < 2 ^ 20 →
        ((got / 2 ^ 12 : Nat) : Int) = (entry / 2 ^ 12 : Nat) + d →
        slotArm64 entry (writeU32 (0x90000010 + (d % 2 ^ 21).toNat % 4 * 2 ^ 29 +
            (d % 2 ^ 21).toNat / 4 % 2 ^ 19 * 2 ^ 5) ++
          writeU32 (0xf9400211 + got % 2 ^ 12 / 8 * 2 ^ 10) ++ writeU32 0xd61f0220 ++
          writeU32 0xd503201f) = some got := by
      intro d h1 h2 h3
      obtain ⟨f1, f2, f3, f4, f5, f6, f7, f8, f9, f10, f11⟩ :=
        arm64_fields (d % 2 ^ 21).toNat (got % 2 ^ 12) (by omega) (by omega)
      have w1 := word_bytes _ f1
      have w2 := word_bytes _ f2
      have hs : signed ((d % 2 ^ 21).toNat / 4 * 4 + (d % 2 ^ 21).toNat % 4) 21 = d := by
        have : (d % 2 ^ 21).toNat / 4 * 4 + (d % 2 ^ 21).toNat % 4 = (d % 2 ^ 21).toNat := by omega
        rw [this]
        exact signed_mod d 20 h1 h2
      generalize 0x90000010 + (d % 2 ^ 21).toNat % 4 * 2 ^ 29 + (d % 2 ^ 21).toNat / 4 % 2 ^ 19 * 2 ^ 5 = A at *
      generalize 0xf9400211 + got % 2 ^ 12 / 8 * 2 ^ 10 = B at *
      have w3 : word (0xd61f0220 % 256) (0xd61f0220 / 2 ^ 8 % 256) (0xd61f0220 / 2 ^ 16 % 256)
        (0xd61f0220 / 2 ^ 24 % 256) = 0xd61f0220 := by decide
      simp only [writeU32, List.cons_append, List.nil_append, slotArm64]
      rw [w1, w2, w3, f6, f7, f11, hs, if_pos ⟨f3, f4, f8, by rw [f9, f5], by rw [f10]⟩]
      have a1 : address (((entry / 2 ^ 12 * 2 ^ 12 : Nat) : Int) + d * 2 ^ 12) = got / 2 ^ 12 * 2 ^ 12 :=
        address_eq _ _ (by omega) (by omega)
      rw [a1, address_eq _ got (by omega) hg]
    simp only at h
    by_cases hc : got / 2 ^ 12 ≥ entry / 2 ^ 12
    · rw [if_pos hc] at h
      by_cases hm : got / 2 ^ 12 - entry / 2 ^ 12 > 0xfffff
      · rw [if_pos hm] at h; simp at h
      · rw [if_neg hm] at h
        obtain rfl := Except.ok.inj h
        exact main _ (by omega) (by omega) (by omega)
    · rw [if_neg hc] at h
      by_cases hm : entry / 2 ^ 12 - got / 2 ^ 12 > 0x100000
      · rw [if_pos hm] at h; simp at h
      · rw [if_neg hm] at h
        obtain rfl := Except.ok.inj h
        exact main _ (by omega) (by omega) (by omega)

theorem riscv64_fields (a b : Nat) (ha : a < 2 ^ 20) (hb : b < 2 ^ 12) :
    (0x00000e17 + a * 2 ^ 12 < 2 ^ 32) ∧ (0x000e3e03 + b * 2 ^ 20 < 2 ^ 32) ∧
    field (0x00000e17 + a * 2 ^ 12) 0 7 = 0x17 ∧ field (0x00000e17 + a * 2 ^ 12) 7 5 = 28 ∧
    field (0x00000e17 + a * 2 ^ 12) 12 20 = a ∧
    field (0x000e3e03 + b * 2 ^ 20) 0 7 = 3 ∧ field (0x000e3e03 + b * 2 ^ 20) 12 3 = 3 ∧
    field (0x000e3e03 + b * 2 ^ 20) 15 5 = 28 ∧ field (0x000e3e03 + b * 2 ^ 20) 7 5 = 28 ∧
    field (0x000e3e03 + b * 2 ^ 20) 20 12 = b := by
  unfold field
  refine ⟨?_, ?_, ?_, ?_, ?_, ?_, ?_, ?_, ?_, ?_⟩ <;> omega

/-- The high part is the rounded quotient. -/
theorem high_eq (d : Int) :
    (if d + 0x800 ≥ 0 then (d + 0x800).tdiv 0x1000 else -((-(d + 0x800) + 0xfff).tdiv 0x1000)) =
      (d + 0x800) / 0x1000 := by
  split
  · rw [Int.tdiv_eq_ediv_of_nonneg (by omega)]
  · rw [Int.tdiv_eq_ediv_of_nonneg (by omega)]
    omega

theorem riscv64_code (entry got : Nat) (d : Int) (hg : got < 2 ^ 64) (h1 : -(2 ^ 31 : Int) ≤ d)
    (h2 : d < 2 ^ 31 - 2 ^ 11) (h3 : (got : Int) = entry + d) :
    slotRiscv64 entry (writeU32 (0x00000e17 + ((d + 0x800) / 0x1000 % 2 ^ 20).toNat * 2 ^ 12) ++
      writeU32 (0x000e3e03 + ((d - (d + 0x800) / 0x1000 * 0x1000) % 2 ^ 12).toNat * 2 ^ 20) ++
      writeU32 0x000e0367 ++ writeU32 0x00000013) = some got := by
  obtain ⟨f1, f2, f3, f4, f5, f6, f7, f8, f9, f10⟩ := riscv64_fields
    ((d + 0x800) / 0x1000 % 2 ^ 20).toNat ((d - (d + 0x800) / 0x1000 * 0x1000) % 2 ^ 12).toNat
    (by omega) (by omega)
  have w1 := word_bytes _ f1
  have w2 := word_bytes _ f2
  have w3 : word (0x000e0367 % 256) (0x000e0367 / 2 ^ 8 % 256) (0x000e0367 / 2 ^ 16 % 256)
    (0x000e0367 / 2 ^ 24 % 256) = 0x000e0367 := by decide
  have s1 : signed (((d + 0x800) / 0x1000 % 2 ^ 20).toNat * 2 ^ 12) 32 = (d + 0x800) / 0x1000 * 0x1000 := by
    have := signed_mod ((d + 0x800) / 0x1000 * 0x1000) 31 (by omega) (by omega)
    have e : ((d + 0x800) / 0x1000 % 2 ^ 20).toNat * 2 ^ 12 =
        ((d + 0x800) / 0x1000 * 0x1000 % 2 ^ 32).toNat := by omega
    rw [e]
    exact this
  have s2 := signed_mod (d - (d + 0x800) / 0x1000 * 0x1000) 11 (by omega) (by omega)
  simp only [writeU32, List.cons_append, List.nil_append, slotRiscv64]
  rw [w1, w2, w3, f5, f10, s1, s2, if_pos ⟨f3, by rw [f4]; decide, f6, f7, by rw [f8, f4], by rw [f9]; decide,
    by decide, by decide, by rw [f9]; decide, by decide⟩]
  have key : ∀ x y : Int, x + y = got → address (address x + y) = got := by
    intro x y hxy
    unfold address
    omega
  rw [key _ _ (by omega)]

theorem riscv64_slot (entry got : Nat) (code : List Nat) (hg : got < 2 ^ 64)
    (h : encodeRiscv64 entry got = .ok code) : slotRiscv64 entry code = some got := by
  have main : ∀ d : Int, -(2 ^ 31 : Int) ≤ d → d < 2 ^ 31 - 2 ^ 11 → (got : Int) = entry + d →
      (let high : Int := if d + 0x800 ≥ 0 then (d + 0x800).tdiv 0x1000
        else -((-(d + 0x800) + 0xfff).tdiv 0x1000)
      let low := d - high * 0x1000
      if high < -0x80000 ∨ high > 0x7ffff ∨ low < -0x800 ∨ low > 0x7ff then Except.error Err.range
      else
        .ok (writeU32 (0x00000e17 + (high % 2 ^ 20).toNat * 2 ^ 12) ++
          writeU32 (0x000e3e03 + (low % 2 ^ 12).toNat * 2 ^ 20) ++ writeU32 0x000e0367 ++
          writeU32 0x00000013)) = .ok code → slotRiscv64 entry code = some got := by
    intro d h1 h2 h3 hh
    simp only [high_eq] at hh
    split at hh
    · simp at hh
    · obtain rfl := Except.ok.inj hh
      exact riscv64_code entry got d hg h1 h2 h3
  unfold encodeRiscv64 at h
  split at h
  · simp at h
  · simp only at h
    by_cases hc : got ≥ entry
    · rw [if_pos hc] at h
      by_cases hm : got - entry > 0x7ffff7ff
      · rw [if_pos hm] at h; simp at h
      · rw [if_neg hm] at h
        exact main _ (by omega) (by omega) (by omega) h
    · rw [if_neg hc] at h
      by_cases hm : entry - got > 0x80000000
      · rw [if_pos hm] at h; simp at h
      · rw [if_neg hm] at h
        exact main _ (by omega) (by omega) (by omega) h

/-- The stub takes the target of its jump from the slot it was made for, on all processors. -/
theorem C115_stub (arch : Arch) (entry got : Nat) (code : List Nat) (hg : got < 2 ^ 64)
    (h : encode arch entry got = .ok code) : slot arch entry code = some got := by
  cases arch
  · exact amd64_slot entry got code hg h
  · exact arm64_slot entry got code hg h
  · exact riscv64_slot entry got code hg h

/-- A stub is refused only if the slot is misplaced or out of the reach of the instructions. -/
theorem C115_accepted (arch : Arch) (entry got : Nat) (hp : Placed arch entry got)
    (hr : Reaches arch entry got) : ∃ code, encode arch entry got = .ok code ∧ code.length = 16 := by
  cases arch
  · simp only [Reaches] at hr
    simp only [encode, encodeAmd64]
    rw [if_neg (by omega)]
    by_cases hc : got ≥ entry + 10
    · rw [if_pos hc, if_neg (by omega)]
      exact ⟨_, rfl, rfl⟩
    · rw [if_neg hc, if_neg (by omega)]
      exact ⟨_, rfl, rfl⟩
  · simp only [Reaches] at hr
    simp only [Placed] at hp
    simp only [encode, encodeArm64]
    rw [if_neg (by omega)]
    by_cases hc : got / 2 ^ 12 ≥ entry / 2 ^ 12
    · rw [if_pos hc, if_neg (by omega)]
      exact ⟨_, rfl, rfl⟩
    · rw [if_neg hc, if_neg (by omega)]
      exact ⟨_, rfl, rfl⟩
  · simp only [Reaches] at hr
    simp only [Placed] at hp
    simp only [encode, encodeRiscv64]
    rw [if_neg (by omega)]
    by_cases hc : got ≥ entry
    · rw [if_pos hc, if_neg (by omega)]
      simp only [high_eq]
      rw [if_neg (by omega)]
      exact ⟨_, rfl, rfl⟩
    · rw [if_neg hc, if_neg (by omega)]
      simp only [high_eq]
      rw [if_neg (by omega)]
      exact ⟨_, rfl, rfl⟩

/-- Slots before and after the stub. -/
example : Reaches .riscv64 0x11000 0x10ff8 ∧ Reaches .riscv64 0x11000 0x13800 ∧
    Placed .riscv64 0x11000 0x13800 ∧ Reaches .arm64 0x400010 0x3ffff8 ∧ Reaches .amd64 0x401000 0x404018 := by
  simp only [Reaches, Placed]
  decide

example : encode .riscv64 0x11000 0x13800 =
    .ok [0x17, 0x3e, 0, 0, 3, 0x3e, 0x0e, 0x80, 0x67, 3, 0x0e, 0, 0x13, 0, 0, 0] := by rfl

end Nature.Ifunc
