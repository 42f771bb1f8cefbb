import Verif.Bitmap.Spec
namespace Nature.Bitmap

theorem bit_isSome (bits : Bytes) (i : Nat) : (bit bits i).isSome ↔ i < 8 * bits.length := by
  simp only [bit, Option.isSome_map]
  by_cases h : i / 8 < bits.length
  · simp [List.getElem?_eq_getElem h]; omega
  · simp [List.getElem?_eq_none (Nat.le_of_not_lt h)]; omega

theorem ofNat_one_shl (k j : Nat) (hj : j < 8) :
    (BitVec.ofNat 8 (1 <<< k)).getLsbD j = decide (j = k) := by
  rw [BitVec.getLsbD_ofNat]
  simp only [Nat.testBit_shiftLeft, hj, decide_true, Bool.true_and]
  by_cases h : j = k
  · subst h; simp
  · simp only [h, decide_false, Bool.and_eq_false_imp, decide_eq_true_eq]
    intro h2
    have : j - k = (j - k - 1) + 1 := by omega
    rw [this]
    simp [Nat.testBit_succ]

theorem ofNat_ones_shl (c s j : Nat) (hj : j < 8) :
    (BitVec.ofNat 8 (((1 <<< c) - 1) <<< s)).getLsbD j = decide (s ≤ j ∧ j < s + c) := by
  rw [BitVec.getLsbD_ofNat]
  simp only [Nat.testBit_shiftLeft, hj, decide_true, Bool.true_and, Nat.one_shiftLeft,
    Nat.testBit_two_pow_sub_one]
  by_cases h1 : s ≤ j <;> by_cases h2 : j < s + c <;> simp [h1, h2] <;> omega

theorem ofNat_ff_shl (s j : Nat) (hj : j < 8) :
    (BitVec.ofNat 8 (0xFF <<< s)).getLsbD j = decide (s ≤ j) := by
  have : (0xFF : Nat) = (1 <<< 8) - 1 := by decide
  rw [this, ofNat_ones_shl 8 s j hj]
  by_cases h1 : s ≤ j <;> simp [h1]; omega

theorem ofNat_low (c j : Nat) (hj : j < 8) :
    (BitVec.ofNat 8 ((1 <<< c) - 1)).getLsbD j = decide (j < c) := by
  have := ofNat_ones_shl c 0 j hj
  simpa using this

theorem bit_modifyByte {bits bits' : Bytes} {k : Nat} {f} (h : modifyByte bits k f = some bits') (i : Nat) :
    bit bits' i = if i / 8 = k then (bits[i / 8]?).map (fun b => (f b).getLsbD (i % 8)) else bit bits i := by
  unfold modifyByte at h
  split at h
  · rename_i b hb
    simp only [Option.some.injEq] at h
    subst h
    simp only [bit]
    by_cases hk : i / 8 = k
    · subst hk
      have hlt : i / 8 < bits.length := by
        rcases Nat.lt_or_ge (i/8) bits.length with h | h
        · exact h
        · rw [List.getElem?_eq_none h] at hb; cases hb
      rw [List.getElem?_eq_getElem hlt] at hb
      simp only [Option.some.injEq] at hb
      simp [hlt, hb]
    · have : k ≠ i / 8 := fun h => hk h.symm
      simp [hk, List.getElem?_set_ne this]
  · cases h

theorem modifyByte_some {bits : Bytes} {k : Nat} {f} (h : k < bits.length) :
    ∃ b', modifyByte bits k f = some b' ∧ b'.length = bits.length := by
  unfold modifyByte
  rw [List.getElem?_eq_getElem h]
  exact ⟨_, rfl, by simp⟩

theorem modifyByte_length {bits bits' : Bytes} {k : Nat} {f} (h : modifyByte bits k f = some bits') :
    bits'.length = bits.length := by
  unfold modifyByte at h
  split at h
  · simp only [Option.some.injEq] at h; subst h; simp
  · cases h

theorem bit_memset {bits bits' : Bytes} {s n : Nat} {v} (h : memset bits s n v = some bits') (i : Nat) :
    bit bits' i = if s ≤ i / 8 ∧ i / 8 < s + n then (bit bits i).map (fun _ => v.getLsbD (i % 8)) else bit bits i := by
  unfold memset at h
  split at h
  · simp only [Option.some.injEq] at h
    subst h
    simp only [bit, List.getElem?_mapIdx, Option.map_map]
    split
    · rename_i hc; cases bits[i/8]? <;> simp_all
    · rename_i hc; cases bits[i/8]? <;> simp_all
  · cases h

theorem memset_length {bits bits' : Bytes} {s n : Nat} {v} (h : memset bits s n v = some bits') :
    bits'.length = bits.length := by
  unfold memset at h
  split at h
  · simp only [Option.some.injEq] at h; subst h; simp
  · cases h

theorem memset_some {bits : Bytes} {s n : Nat} {v} (h : s + n ≤ bits.length) :
    ∃ b', memset bits s n v = some b' := by
  unfold memset; rw [if_pos h]; exact ⟨_, rfl⟩

theorem div8_lt_8 (i : Nat) : i % 8 < 8 := Nat.mod_lt _ (by omega)


theorem bit_eq_map (bits : Bytes) (i : Nat) : bit bits i = (bits[i / 8]?).map (·.getLsbD (i % 8)) := rfl

theorem set_spec {bits : Bytes} {i : Nat} (h : i < 8 * bits.length) :
    ∃ b', set bits i = some b' ∧ b'.length = bits.length ∧
      ∀ j, bit b' j = if j = i then some true else bit bits j := by
  obtain ⟨b', hb, hl⟩ := modifyByte_some (f := (· ||| BitVec.ofNat 8 (1 <<< (i % 8)))) (show i / 8 < bits.length by omega)
  refine ⟨b', hb, hl, fun j => ?_⟩
  rw [bit_modifyByte hb]
  have hm := div8_lt_8 j
  by_cases h1 : j / 8 = i / 8
  · have hlt : j / 8 < bits.length := by omega
    simp only [h1, if_true, bit]
    rw [h1] at hlt
    simp only [List.getElem?_eq_getElem hlt, Option.map_some, BitVec.getLsbD_or, ofNat_one_shl _ _ hm]
    by_cases h2 : j = i
    · simp [h2]
    · have : j % 8 ≠ i % 8 := by omega
      simp [h2, this]
  · have : j ≠ i := fun h => h1 (by rw [h])
    simp [h1, this]

theorem clear_spec {bits : Bytes} {i : Nat} (h : i < 8 * bits.length) :
    ∃ b', clear bits i = some b' ∧ b'.length = bits.length ∧
      ∀ j, bit b' j = if j = i then some false else bit bits j := by
  obtain ⟨b', hb, hl⟩ := modifyByte_some (f := (· &&& ~~~ BitVec.ofNat 8 (1 <<< (i % 8)))) (show i / 8 < bits.length by omega)
  refine ⟨b', hb, hl, fun j => ?_⟩
  rw [bit_modifyByte hb]
  have hm := div8_lt_8 j
  by_cases h1 : j / 8 = i / 8
  · have hlt : j / 8 < bits.length := by omega
    simp only [h1, if_true, bit]
    rw [h1] at hlt
    simp only [List.getElem?_eq_getElem hlt, Option.map_some, BitVec.getLsbD_and, BitVec.getLsbD_not, ofNat_one_shl _ _ hm]
    by_cases h2 : j = i
    · simp [h2]
    · have : j % 8 ≠ i % 8 := by omega
      simp [h2, this, hm]
  · have : j ≠ i := fun h => h1 (by rw [h])
    simp [h1, this]

theorem test_spec (bits : Bytes) (i : Nat) : test bits i = bit bits i := by
  unfold test bit
  cases hb : bits[i / 8]? with
  | none => rfl
  | some b =>
    simp only [Option.map_some, Option.some.injEq]
    have hm := div8_lt_8 i
    cases hv : b.getLsbD (i % 8) with
    | true =>
      simp only [bne_iff_ne, ne_eq]
      intro h
      have := congrArg (fun x => x.getLsbD (i % 8)) h
      simp only [BitVec.getLsbD_and, ofNat_one_shl _ _ hm, hv] at this
      simp at this
    | false =>
      simp only [bne_eq_false_iff_eq]
      apply BitVec.eq_of_getLsbD_eq
      intro j hj
      simp only [BitVec.getLsbD_and, ofNat_one_shl _ _ hj]
      by_cases h2 : j = i % 8
      · subst h2; simp [hv]
      · simp [h2]

/-- Shared characterisation of a masked update. -/
theorem bit_or {bits b' : Bytes} {k : Nat} {m : BitVec 8} (h : modifyByte bits k (· ||| m) = some b') (i : Nat) :
    bit b' i = if i / 8 = k ∧ m.getLsbD (i % 8) = true then (bit bits i).map (fun _ => true) else bit bits i := by
  rw [bit_modifyByte h]
  unfold bit
  cases hb : bits[i / 8]? with
  | none => simp
  | some b =>
    by_cases h1 : i / 8 = k <;> cases hm : m.getLsbD (i % 8) <;> simp [h1, hm]

theorem bit_andn {bits b' : Bytes} {k : Nat} {m : BitVec 8} (h : modifyByte bits k (· &&& ~~~ m) = some b') (i : Nat) :
    bit b' i = if i / 8 = k ∧ m.getLsbD (i % 8) = true then (bit bits i).map (fun _ => false) else bit bits i := by
  rw [bit_modifyByte h]
  have hm8 := div8_lt_8 i
  unfold bit
  cases hb : bits[i / 8]? with
  | none => simp
  | some b =>
    by_cases h1 : i / 8 = k <;> cases hm : m.getLsbD (i % 8) <;>
      simp only [h1, hm, hm8, if_true, if_false, true_and, false_and, and_false, Option.map_some,
        BitVec.getLsbD_and, BitVec.getLsbD_not, decide_true, Bool.not_true, Bool.not_false,
        Bool.and_true, Bool.and_false, Bool.false_eq_true]

theorem map_const_map {α β : Type} (o : Option α) (v : β) :
    (o.map (fun _ => v)).map (fun _ => v) = o.map (fun _ => v) := by cases o <;> rfl

theorem batchSet_spec {bits : Bytes} {index count : Nat} (h : index + count ≤ 8 * bits.length) :
    ∃ b', batchSet bits index count = some b' ∧ b'.length = bits.length ∧
      ∀ i, bit b' i = if index ≤ i ∧ i < index + count then (bit bits i).map (fun _ => true) else bit bits i := by
  unfold batchSet
  by_cases hc : count = 0
  · subst hc; refine ⟨bits, by simp, rfl, fun i => ?_⟩
    rw [if_neg (by omega)]
  · simp only [hc, if_false]
    by_cases hse : index / 8 = (index + count) / 8
    · have hlt : index / 8 < bits.length := by omega
      obtain ⟨b', hb, hl⟩ := modifyByte_some
        (f := (· ||| BitVec.ofNat 8 (((1 <<< count) - 1) <<< (index % 8)))) hlt
      refine ⟨b', by simp only [hse, if_true]; rw [← hse]; simpa using hb, hl, fun i => ?_⟩
      rw [bit_or hb, ofNat_ones_shl _ _ _ (div8_lt_8 i)]
      have : (i / 8 = index / 8 ∧ decide (index % 8 ≤ i % 8 ∧ i % 8 < index % 8 + count) = true) ↔
          (index ≤ i ∧ i < index + count) := by
        simp only [decide_eq_true_eq]; omega
      simp only [this]
    · simp only [hse, if_false]
      -- leading partial byte
      have step1 : ∃ b1 sb, (if index % 8 ≠ 0 then
            (modifyByte bits (index / 8) (· ||| BitVec.ofNat 8 (0xFF <<< (index % 8)))).map (·, index / 8 + 1)
          else some (bits, index / 8)) = some (b1, sb) ∧ b1.length = bits.length ∧
          sb = (index + 7) / 8 ∧
          ∀ i, bit b1 i = if index ≤ i ∧ i < 8 * sb then (bit bits i).map (fun _ => true) else bit bits i := by
        by_cases hs : index % 8 = 0
        · refine ⟨bits, index / 8, by simp [hs], rfl, by omega, fun i => ?_⟩
          rw [if_neg (by omega)]
        · have hlt : index / 8 < bits.length := by omega
          obtain ⟨b', hb, hl⟩ := modifyByte_some
            (f := (· ||| BitVec.ofNat 8 (0xFF <<< (index % 8)))) hlt
          refine ⟨b', index / 8 + 1, by simp [hs, hb], hl, by omega, fun i => ?_⟩
          rw [bit_or hb, ofNat_ff_shl _ _ (div8_lt_8 i)]
          have : (i / 8 = index / 8 ∧ decide (index % 8 ≤ i % 8) = true) ↔
              (index ≤ i ∧ i < 8 * (index / 8 + 1)) := by
            simp only [decide_eq_true_eq]; omega
          simp only [this]
      obtain ⟨b1, sb, e1, l1, hsb, p1⟩ := step1
      rw [e1]
      simp only [Option.bind_some]
      have step2 : ∃ b2, (if sb < (index + count) / 8 then memset b1 sb ((index + count) / 8 - sb) 0xFF#8
          else some b1) = some b2 ∧ b2.length = bits.length ∧
          ∀ i, bit b2 i = if index ≤ i ∧ i < 8 * ((index + count) / 8) then (bit bits i).map (fun _ => true) else bit bits i := by
        by_cases hlt : sb < (index + count) / 8
        · obtain ⟨b2, hb2⟩ := memset_some (bits := b1) (s := sb) (n := (index + count) / 8 - sb) (v := 0xFF#8) (by omega)
          refine ⟨b2, by simp [hlt, hb2], by rw [memset_length hb2, l1], fun i => ?_⟩
          have hff : (0xFF#8).getLsbD (i % 8) = true := by
            have : ∀ k : Fin 8, (0xFF#8).getLsbD k.val = true := by decide
            exact this ⟨i % 8, div8_lt_8 i⟩
          rw [bit_memset hb2, p1, hff]
          by_cases c1 : sb ≤ i / 8 ∧ i / 8 < sb + ((index + count) / 8 - sb)
          · rw [if_pos c1, if_neg (by omega), if_pos (by omega)]
          · rw [if_neg c1]
            by_cases c2 : index ≤ i ∧ i < 8 * sb
            · rw [if_pos c2, if_pos (by omega)]
            · rw [if_neg c2, if_neg (by omega)]
        · refine ⟨b1, by simp [hlt], l1, fun i => ?_⟩
          rw [p1]
          have : sb = (index + count) / 8 := by omega
          rw [this]
      obtain ⟨b2, e2, l2, p2⟩ := step2
      rw [e2]
      simp only [Option.bind_some]
      by_cases he : (index + count) % 8 = 0
      · refine ⟨b2, by simp [he], l2, fun i => ?_⟩
        rw [p2]
        have : 8 * ((index + count) / 8) = index + count := by omega
        rw [this]
      · have hlt : (index + count) / 8 < b2.length := by omega
        obtain ⟨b3, hb, hl⟩ := modifyByte_some
            (f := (· ||| BitVec.ofNat 8 ((1 <<< ((index + count) % 8)) - 1))) hlt
        refine ⟨b3, by simp [he, hb], by omega, fun i => ?_⟩
        rw [bit_or hb, ofNat_low _ _ (div8_lt_8 i), p2]
        simp only [decide_eq_true_eq]
        by_cases c1 : i / 8 = (index + count) / 8 ∧ i % 8 < (index + count) % 8
        · rw [if_pos c1, if_neg (by omega), if_pos (by omega)]
        · rw [if_neg c1]
          by_cases c2 : index ≤ i ∧ i < 8 * ((index + count) / 8)
          · rw [if_pos c2, if_pos (by omega)]
          · rw [if_neg c2, if_neg (by omega)]

theorem batchClear_spec {bits : Bytes} {index count : Nat} (h : index + count ≤ 8 * bits.length) :
    ∃ b', batchClear bits index count = some b' ∧ b'.length = bits.length ∧
      ∀ i, bit b' i = if index ≤ i ∧ i < index + count then (bit bits i).map (fun _ => false) else bit bits i := by
  unfold batchClear
  by_cases hc : count = 0
  · subst hc; refine ⟨bits, by simp, rfl, fun i => ?_⟩
    rw [if_neg (by omega)]
  · simp only [hc, if_false]
    by_cases hse : index / 8 = (index + count) / 8
    · have hlt : index / 8 < bits.length := by omega
      obtain ⟨b', hb, hl⟩ := modifyByte_some
        (f := (· &&& ~~~ BitVec.ofNat 8 (((1 <<< count) - 1) <<< (index % 8)))) hlt
      refine ⟨b', by simp only [hse, if_true]; rw [← hse]; simpa using hb, hl, fun i => ?_⟩
      rw [bit_andn hb, ofNat_ones_shl _ _ _ (div8_lt_8 i)]
      have : (i / 8 = index / 8 ∧ decide (index % 8 ≤ i % 8 ∧ i % 8 < index % 8 + count) = true) ↔
          (index ≤ i ∧ i < index + count) := by
        simp only [decide_eq_true_eq]; omega
      simp only [this]
    · simp only [hse, if_false]
      have step1 : ∃ b1 sb, (if index % 8 ≠ 0 then
            (modifyByte bits (index / 8) (· &&& ~~~ BitVec.ofNat 8 (0xFF <<< (index % 8)))).map (·, index / 8 + 1)
          else some (bits, index / 8)) = some (b1, sb) ∧ b1.length = bits.length ∧
          sb = (index + 7) / 8 ∧
          ∀ i, bit b1 i = if index ≤ i ∧ i < 8 * sb then (bit bits i).map (fun _ => false) else bit bits i := by
        by_cases hs : index % 8 = 0
        · refine ⟨bits, index / 8, by simp [hs], rfl, by omega, fun i => ?_⟩
          rw [if_neg (by omega)]
        · have hlt : index / 8 < bits.length := by omega
          obtain ⟨b', hb, hl⟩ := modifyByte_some
            (f := (· &&& ~~~ BitVec.ofNat 8 (0xFF <<< (index % 8)))) hlt
          refine ⟨b', index / 8 + 1, by simp [hs, hb], hl, by omega, fun i => ?_⟩
          rw [bit_andn hb, ofNat_ff_shl _ _ (div8_lt_8 i)]
          have : (i / 8 = index / 8 ∧ decide (index % 8 ≤ i % 8) = true) ↔
              (index ≤ i ∧ i < 8 * (index / 8 + 1)) := by
            simp only [decide_eq_true_eq]; omega
          simp only [this]
      obtain ⟨b1, sb, e1, l1, hsb, p1⟩ := step1
      rw [e1]
      simp only [Option.bind_some]
      have step2 : ∃ b2, (if sb < (index + count) / 8 then memset b1 sb ((index + count) / 8 - sb) 0#8
          else some b1) = some b2 ∧ b2.length = bits.length ∧
          ∀ i, bit b2 i = if index ≤ i ∧ i < 8 * ((index + count) / 8) then (bit bits i).map (fun _ => false) else bit bits i := by
        by_cases hlt : sb < (index + count) / 8
        · obtain ⟨b2, hb2⟩ := memset_some (bits := b1) (s := sb) (n := (index + count) / 8 - sb) (v := 0#8) (by omega)
          refine ⟨b2, by simp [hlt, hb2], by rw [memset_length hb2, l1], fun i => ?_⟩
          have hff : (0#8).getLsbD (i % 8) = false := by simp
          rw [bit_memset hb2, p1, hff]
          by_cases c1 : sb ≤ i / 8 ∧ i / 8 < sb + ((index + count) / 8 - sb)
          · rw [if_pos c1, if_neg (by omega), if_pos (by omega)]
          · rw [if_neg c1]
            by_cases c2 : index ≤ i ∧ i < 8 * sb
            · rw [if_pos c2, if_pos (by omega)]
            · rw [if_neg c2, if_neg (by omega)]
        · refine ⟨b1, by simp [hlt], l1, fun i => ?_⟩
          rw [p1]
          have : sb = (index + count) / 8 := by omega
          rw [this]
      obtain ⟨b2, e2, l2, p2⟩ := step2
      rw [e2]
      simp only [Option.bind_some]
      by_cases he : (index + count) % 8 = 0
      · refine ⟨b2, by simp [he], l2, fun i => ?_⟩
        rw [p2]
        have : 8 * ((index + count) / 8) = index + count := by omega
        rw [this]
      · have hlt : (index + count) / 8 < b2.length := by omega
        obtain ⟨b3, hb, hl⟩ := modifyByte_some
            (f := (· &&& ~~~ BitVec.ofNat 8 ((1 <<< ((index + count) % 8)) - 1))) hlt
        refine ⟨b3, by simp [he, hb], by omega, fun i => ?_⟩
        rw [bit_andn hb, ofNat_low _ _ (div8_lt_8 i), p2]
        simp only [decide_eq_true_eq]
        by_cases c1 : i / 8 = (index + count) / 8 ∧ i % 8 < (index + count) % 8
        · rw [if_pos c1, if_neg (by omega), if_pos (by omega)]
        · rw [if_neg c1]
          by_cases c2 : index ≤ i ∧ i < 8 * ((index + count) / 8)
          · rw [if_pos c2, if_pos (by omega)]
          · rw [if_neg c2, if_neg (by omega)]

theorem bytesZero_spec (bits : Bytes) (n : Nat) (h : n ≤ bits.length) :
    ∃ v, bytesZero bits n = some v ∧ (v = true ↔ ∀ k, k < n → bits[k]? = some 0#8) := by
  induction n generalizing bits with
  | zero => exact ⟨true, by simp [bytesZero], by simp⟩
  | succ n ih =>
    cases bits with
    | nil => simp at h
    | cons b rest =>
      unfold bytesZero
      by_cases hb : b = 0#8
      · obtain ⟨v, e, hv⟩ := ih rest (by simpa using h)
        refine ⟨v, by simp [hb, e], hv.trans ?_⟩
        constructor
        · intro h k hk
          cases k with
          | zero => simp [hb]
          | succ k => simpa using h k (by omega)
        · intro h k hk
          simpa using h (k + 1) (by omega)
      · refine ⟨false, by simp [hb], by simp; exact ⟨0, by omega, by simpa using hb⟩⟩

theorem byte_zero_iff (b : BitVec 8) : b = 0#8 ↔ ∀ j, j < 8 → b.getLsbD j = false := by
  constructor
  · intro h; subst h; intro j _; simp
  · intro h; apply BitVec.eq_of_getLsbD_eq; intro j hj; simp [h j hj]

theorem isEmpty_spec (bits : Bytes) (count : Nat) (h : count ≤ 8 * bits.length) :
    ∃ v, isEmpty bits count = some v ∧ (v = true ↔ ∀ i, i < count → bit bits i = some false) := by
  obtain ⟨v, e, hv⟩ := bytesZero_spec bits (count / 8) (by omega)
  have key : (∀ k, k < count / 8 → bits[k]? = some 0#8) ↔ ∀ i, i / 8 < count / 8 → bit bits i = some false := by
    constructor
    · intro hh i hi
      simp [bit, hh _ hi]
    · intro hh k hk
      have hkl : k < bits.length := by omega
      rw [List.getElem?_eq_getElem hkl]
      congr 1
      rw [byte_zero_iff]
      intro j hj
      have := hh (8 * k + j) (by omega)
      unfold bit at this
      rw [show (8 * k + j) / 8 = k by omega, show (8 * k + j) % 8 = j by omega,
        List.getElem?_eq_getElem hkl] at this
      simpa using this
  rw [key] at hv
  unfold isEmpty
  rw [e]
  cases v with
  | false =>
    refine ⟨false, rfl, ?_⟩
    simp only [Bool.false_eq_true, false_iff] at hv ⊢
    intro hh
    exact hv (fun i hi => hh i (by omega))
  | true =>
    simp only [true_iff] at hv
    by_cases hr : 0 < count % 8
    · have hkl : count / 8 < bits.length := by omega
      simp only [hr, if_true, List.getElem?_eq_getElem hkl]
      refine ⟨_, rfl, ?_⟩
      simp only [Bool.not_eq_true', bne_eq_false_iff_eq]
      rw [byte_zero_iff]
      constructor
      · intro hh i hi
        by_cases c : i / 8 < count / 8
        · exact hv i c
        · have e8 : i / 8 = count / 8 := by omega
          have := hh (i % 8) (div8_lt_8 i)
          rw [BitVec.getLsbD_and, ofNat_low _ _ (div8_lt_8 i)] at this
          have hlt : i % 8 < count % 8 := by omega
          simp only [hlt, decide_true, Bool.and_true] at this
          unfold bit
          simp only [e8, List.getElem?_eq_getElem hkl, Option.map_some, this]
      · intro hh j hj
        rw [BitVec.getLsbD_and, ofNat_low _ _ hj]
        by_cases c : j < count % 8
        · have := hh (8 * (count / 8) + j) (by omega)
          unfold bit at this
          rw [show (8 * (count / 8) + j) / 8 = count / 8 by omega,
            show (8 * (count / 8) + j) % 8 = j by omega, List.getElem?_eq_getElem hkl] at this
          simp only [Option.map_some, Option.some.injEq] at this
          simp [this]
        · simp [c]
    · simp only [hr, if_false]
      refine ⟨true, rfl, by simp; intro i hi; exact hv i (by omega)⟩

theorem bit_append_zeros (bits : Bytes) (n i : Nat) :
    bit (bits ++ List.replicate n 0#8) i =
      if i < 8 * bits.length then bit bits i else if i < 8 * (bits.length + n) then some false else none := by
  unfold bit
  by_cases h : i < 8 * bits.length
  · rw [if_pos h, List.getElem?_append_left (by omega)]
  · rw [if_neg h, List.getElem?_append_right (by omega)]
    by_cases h2 : i < 8 * (bits.length + n)
    · rw [if_pos h2, List.getElem?_replicate]
      simp; omega
    · rw [if_neg h2, List.getElem?_replicate]
      simp; omega

theorem growSet_spec {bits : Bytes} {i : Nat} {v : Bool} (h : 0 < bits.length) :
    ∃ b', growSet bits i v = some b' ∧ bits.length ≤ b'.length ∧ i < 8 * b'.length ∧
      ∀ j, j < 8 * b'.length → bit b' j = if j = i then some v else if j < 8 * bits.length then bit bits j else some false := by
  unfold growSet
  by_cases hn : i / 8 ≥ bits.length
  · have h0 : ¬ (i / 8 * 2 = 0) := by omega
    simp only [hn, if_true, h0, if_false]
    have hlen : (bits ++ List.replicate (i / 8 * 2 - bits.length) 0#8).length = i / 8 * 2 := by simp; omega
    have hi : i < 8 * (bits ++ List.replicate (i / 8 * 2 - bits.length) 0#8).length := by rw [hlen]; omega
    cases v with
    | true =>
      obtain ⟨b', e, l, p⟩ := set_spec hi
      refine ⟨b', by simp [e], by omega, by omega, fun j hj => ?_⟩
      rw [p, bit_append_zeros]
      have : j < 8 * (bits.length + (i / 8 * 2 - bits.length)) := by omega
      simp only [this, if_true]
    | false =>
      obtain ⟨b', e, l, p⟩ := clear_spec hi
      refine ⟨b', by simp [e], by omega, by omega, fun j hj => ?_⟩
      rw [p, bit_append_zeros]
      have : j < 8 * (bits.length + (i / 8 * 2 - bits.length)) := by omega
      simp only [this, if_true]
  · have hi : i < 8 * bits.length := by omega
    simp only [hn, if_false]
    cases v with
    | true =>
      obtain ⟨b', e, l, p⟩ := set_spec hi
      refine ⟨b', by simp [e], by omega, by omega, fun j hj => ?_⟩
      rw [p, if_pos (show j < 8 * bits.length by omega)]
    | false =>
      obtain ⟨b', e, l, p⟩ := clear_spec hi
      refine ⟨b', by simp [e], by omega, by omega, fun j hj => ?_⟩
      rw [p, if_pos (show j < 8 * bits.length by omega)]

end Nature.Bitmap
