import Verif.Bitmap.Lemmas
/-!
# C01  Bitmap range operations touch exactly their range
-/
namespace Nature.Bitmap

/-- C01 (range set).  On every buffer and every range inside it the operation is defined, keeps the buffer's
length, makes every bit of the range one and leaves every other bit as it was. -/
theorem C01_batch_set (bits : Bytes) (index count : Nat) (h : index + count ≤ 8 * bits.length) :
    ∃ bits', batchSet bits index count = some bits' ∧ bits'.length = bits.length ∧
      (∀ i, index ≤ i → i < index + count → bit bits' i = some true) ∧
      (∀ i, i < index ∨ index + count ≤ i → bit bits' i = bit bits i) := by
  obtain ⟨b', e, l, p⟩ := batchSet_spec h
  refine ⟨b', e, l, fun i h1 h2 => ?_, fun i h1 => ?_⟩
  · rw [p, if_pos ⟨h1, h2⟩]
    have := (bit_isSome bits i).2 (by omega)
    cases hb : bit bits i <;> simp_all
  · rw [p, if_neg (by omega)]

/-- C01 (range clear). -/
theorem C01_batch_clear (bits : Bytes) (index count : Nat) (h : index + count ≤ 8 * bits.length) :
    ∃ bits', batchClear bits index count = some bits' ∧ bits'.length = bits.length ∧
      (∀ i, index ≤ i → i < index + count → bit bits' i = some false) ∧
      (∀ i, i < index ∨ index + count ≤ i → bit bits' i = bit bits i) := by
  obtain ⟨b', e, l, p⟩ := batchClear_spec h
  refine ⟨b', e, l, fun i h1 h2 => ?_, fun i h1 => ?_⟩
  · rw [p, if_pos ⟨h1, h2⟩]
    have := (bit_isSome bits i).2 (by omega)
    cases hb : bit bits i <;> simp_all
  · rw [p, if_neg (by omega)]

/-- C01 (single-bit operations): set, clear and test agree with the bit view. -/
theorem C01_single (bits : Bytes) (index : Nat) (h : index < 8 * bits.length) :
    (∃ s, set bits index = some s ∧ s.length = bits.length ∧ bit s index = some true ∧
      ∀ i, i ≠ index → bit s i = bit bits i) ∧
    (∃ c, clear bits index = some c ∧ c.length = bits.length ∧ bit c index = some false ∧
      ∀ i, i ≠ index → bit c i = bit bits i) ∧
    test bits index = bit bits index ∧ (test bits index).isSome := by
  obtain ⟨s, e1, l1, p1⟩ := set_spec h
  obtain ⟨c, e2, l2, p2⟩ := clear_spec h
  refine ⟨⟨s, e1, l1, by rw [p1]; simp, fun i hi => by rw [p1, if_neg hi]⟩,
    ⟨c, e2, l2, by rw [p2]; simp, fun i hi => by rw [p2, if_neg hi]⟩, test_spec _ _, ?_⟩
  rw [test_spec]; exact (bit_isSome _ _).2 h

/-- C01 (emptiness): `bitmap_empty` on the first `count` bits answers true iff all of them are zero. -/
theorem C01_empty (bits : Bytes) (count : Nat) (h : count ≤ 8 * bits.length) :
    ∃ v, isEmpty bits count = some v ∧ (v = true ↔ ∀ i, i < count → bit bits i = some false) :=
  isEmpty_spec bits count h

/-- C01 (growing set): on a bitmap with a non-empty buffer, setting any index, inside or far outside the buffer,
succeeds, the new buffer covers the index, the addressed bit has the requested value, old bits keep their values
and new bits are zero. -/
theorem C01_grow_set (bits : Bytes) (index : Nat) (v : Bool) (h : 0 < bits.length) :
    ∃ bits', growSet bits index v = some bits' ∧ index < 8 * bits'.length ∧ bit bits' index = some v ∧
      (∀ i, i ≠ index → i < 8 * bits.length → bit bits' i = bit bits i) ∧
      (∀ i, i ≠ index → 8 * bits.length ≤ i → i < 8 * bits'.length → bit bits' i = some false) := by
  obtain ⟨b', e, l, hi, p⟩ := growSet_spec (i := index) (v := v) h
  refine ⟨b', e, hi, by rw [p _ hi]; simp, fun i h1 h2 => ?_, fun i h1 h2 h3 => ?_⟩
  · rw [p i (by omega), if_neg h1, if_pos h2]
  · rw [p i h3, if_neg h1, if_neg (by omega)]

/-- Without the non-empty hypothesis the growing set aborts (`mallocz(0)`, utils/helper.h:187): the bitmap must
have been created with at least one byte. -/
theorem C01_grow_set_empty_aborts : growSet [] 3 true = none := by decide

-- satisfiability: a 4-byte buffer, a range crossing three bytes
example : 5 + 18 ≤ 8 * ([0x0F#8, 0x00#8, 0x81#8, 0xFF#8] : Bytes).length ∧
    batchSet [0x0F#8, 0x00#8, 0x81#8, 0xFF#8] 5 18 = some [0xEF#8, 0xFF#8, 0xFF#8, 0xFF#8] := by decide
example : batchClear [0xFF#8, 0xFF#8, 0xFF#8, 0xFF#8] 5 18 = some [0x1F#8, 0x00#8, 0x80#8, 0xFF#8] := by decide
example : isEmpty [0x00#8, 0xF0#8] 12 = some true ∧ isEmpty [0x00#8, 0xF0#8] 13 = some false := by decide
example : growSet [0x01#8] 20 true = some [0x01#8, 0x00#8, 0x10#8, 0x00#8] := by decide
example : ∃ s, set [0x01#8, 0x80#8] 9 = some s ∧ s = [0x01#8, 0x82#8] := ⟨_, rfl, by decide⟩

end Nature.Bitmap
