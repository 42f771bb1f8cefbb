import Verif.Uleb.Lemmas
/-! C39: ULEB128 relocation fields are patched in place. -/
namespace Nature.Uleb
open Nature

/-- **C39.** SET writes symbol plus addend into the field: same width, nothing after it
touched, value modulo the field's range. -/
theorem C39_set {place : List Byte} {n w : Nat} (hn : n ≤ place.length) (h : HasField place n w) (sym add : U64)
    (hf : Fits (sym.toNat + add.toInt)) :
    ∃ p, apply place n false sym add = .ok ⟨.ok, p, w⟩ ∧ Patched place p w (sym.toNat + add.toInt) := by
  obtain ⟨r, e, er⟩ := addSigned_fits sym add hf
  obtain ⟨p, ep, hp⟩ := write_spec place w r (sym.toNat + add.toInt) h.idx.1 h.2.2.1 h.2.1 (by
    rw [er]; obtain ⟨h1, h2⟩ := hf; omega)
  refine ⟨p, ?_, hp⟩
  unfold apply
  rw [fieldSize_of_has hn h]
  simp [e, ep]

/-- **C39.** SUB subtracts symbol minus addend from what the field holds. -/
theorem C39_sub {place : List Byte} {n w : Nat} (hn : n ≤ place.length) (h : HasField place n w) (sym add : U64)
    (hf : Fits (sym.toNat - add.toInt)) :
    ∃ p, apply place n true sym add = .ok ⟨.ok, p, w⟩ ∧
      Patched place p w (ulebVal (place.take w) - (sym.toNat - add.toInt)) := by
  obtain ⟨r, e, er⟩ := subSigned_fits sym add hf
  obtain ⟨c, ec, hc⟩ := read_spec place w h.2.2.1 h.2.1
  rw [Nat.mod_eq_of_lt h.2.2.2.2] at hc
  obtain ⟨p, ep, hp⟩ := write_spec place w (c - r) (ulebVal (place.take w) - (sym.toNat - add.toInt))
    h.idx.1 h.2.2.1 h.2.1 (by
    rw [BitVec.toNat_sub]
    have := r.isLt; have := c.isLt
    omega)
  refine ⟨p, ?_, hp⟩
  unfold apply
  rw [fieldSize_of_has hn h]
  simp [e, ec, ep]

/-- **C39.** Nothing is modified, and nothing else is touched, when the relocation is
rejected; it is accepted exactly when the bytes start with a field and the operand is a
64-bit value. -/
theorem C39_accepts (place : List Byte) (n : Nat) (hn : n ≤ place.length) (subtract : Bool) (sym add : U64) :
    ∃ o, apply place n subtract sym add = .ok o ∧ (o.status ≠ .ok → o.place = place) ∧
      (o.status = .ok ↔ (∃ w, HasField place n w) ∧
        Fits (if subtract then sym.toNat - add.toInt else sym.toNat + add.toInt)) := by
  rcases fieldSize_spec place n hn with ⟨w, e, h⟩ | ⟨⟨st, e, hs, _⟩, h⟩
  · by_cases hf : Fits (if subtract then sym.toNat - add.toInt else sym.toNat + add.toInt)
    · cases subtract with
      | false =>
        obtain ⟨p, ep, _⟩ := C39_set hn h sym add hf
        exact ⟨_, ep, by simp, by simp only [true_iff]; exact ⟨⟨w, h⟩, hf⟩⟩
      | true =>
        obtain ⟨p, ep, _⟩ := C39_sub hn h sym add hf
        exact ⟨_, ep, by simp, by simp only [true_iff]; exact ⟨⟨w, h⟩, hf⟩⟩
    · cases subtract with
      | false =>
        refine ⟨⟨.setOverflow, place, w⟩, ?_, by simp, by simp [hf]; exact fun _ _ => hf⟩
        unfold apply; rw [e]; simp [addSigned_none sym add hf]
      | true =>
        refine ⟨⟨.subOverflow, place, w⟩, ?_, by simp, by simp [hf]; exact fun _ _ => hf⟩
        unfold apply; rw [e]; simp [subSigned_none sym add hf]
  · refine ⟨⟨st, place, 0⟩, ?_, by simp, ?_⟩
    · unfold apply; rw [e]; simp [hs]
    · simp only [hs, false_iff]
      rintro ⟨⟨w, hw⟩, _⟩
      exact h w hw

theorem take_has {place : List Byte} {n w : Nat} (h : HasField place n w) : HasField (place.take w) w w := by
  obtain ⟨a, b, c, d, e⟩ := h
  have ht : (place.take w).take w = place.take w := List.take_of_length_le (by simp; omega)
  exact ⟨by omega, by simp; omega, c, by rw [ht]; exact d, by rw [ht]; exact e⟩

theorem pair_start {place : List Byte} {n w : Nat} (hn : n ≤ place.length) (h : HasField place n w) (a b c d : U64) :
    applyPair place n a b c d =
      (apply (place.take w) w false a b).bind fun r1 =>
      if r1.status ≠ .ok then .ok ⟨r1.status, place, w⟩ else
      (apply r1.place w true c d).bind fun r2 =>
      if r2.status ≠ .ok then .ok ⟨r2.status, place, w⟩ else
      .ok ⟨.ok, r2.place.take w ++ place.drop w, w⟩ := by
  unfold applyPair
  rw [fieldSize_of_has hn h]
  simp [h.2.2.1]
  intro hc
  exact absurd h.2.1 (by omega)

/-- **C39.** A SET/SUB pair leaves the difference of the two operands in the field. -/
theorem C39_pair {place : List Byte} {n w : Nat} (hn : n ≤ place.length) (h : HasField place n w)
    (setSym setAdd subSym subAdd : U64)
    (h1 : Fits (setSym.toNat + setAdd.toInt)) (h2 : Fits (subSym.toNat - subAdd.toInt)) :
    ∃ p, applyPair place n setSym setAdd subSym subAdd = .ok ⟨.ok, p, w⟩ ∧
      Patched place p w ((setSym.toNat + setAdd.toInt) - (subSym.toNat - subAdd.toInt)) := by
  have hw := h.2.1
  have ht := take_has h
  obtain ⟨p1, e1, hp1⟩ := C39_set (place := place.take w) (by simp; omega) ht setSym setAdd h1
  have hh1 := Patched.has ht hp1
  obtain ⟨p2, e2, hp2⟩ := C39_sub (place := p1) (n := w) hh1.2.1 hh1 subSym subAdd h2
  refine ⟨p2.take w ++ place.drop w, ?_, ?_⟩
  · rw [pair_start hn h, e1]
    simp [e2]
  · obtain ⟨l1, d1, f1, v1⟩ := hp1
    obtain ⟨l2, d2, f2, v2⟩ := hp2
    have hl2 : p2.length = w := by simp at l1; omega
    have htt : (p2.take w ++ place.drop w).take w = p2.take w := by
      rw [List.take_append_of_le_length (by simp; omega), List.take_take, Nat.min_self]
    refine ⟨by simp; omega, ?_, by rw [htt]; exact f2, ?_⟩
    · rw [List.drop_append_of_le_length (by simp; omega), List.drop_of_length_le (by simp; omega), List.nil_append]
    · rw [htt, v2, v1, Int.emod_sub_emod]

/-- **C39.** The pair is all or nothing: rejected unless both operands fit and there is a
field, and then nothing is modified. -/
theorem C39_pair_accepts (place : List Byte) (n : Nat) (hn : n ≤ place.length) (setSym setAdd subSym subAdd : U64) :
    ∃ o, applyPair place n setSym setAdd subSym subAdd = .ok o ∧ (o.status ≠ .ok → o.place = place) ∧
      (o.status = .ok ↔ (∃ w, HasField place n w) ∧
        Fits (setSym.toNat + setAdd.toInt) ∧ Fits (subSym.toNat - subAdd.toInt)) := by
  rcases fieldSize_spec place n hn with ⟨w, e, h⟩ | ⟨⟨st, e, hs, _⟩, h⟩
  · by_cases h1 : Fits (setSym.toNat + setAdd.toInt)
    · by_cases h2 : Fits (subSym.toNat - subAdd.toInt)
      · obtain ⟨p, ep, _⟩ := C39_pair hn h setSym setAdd subSym subAdd h1 h2
        exact ⟨_, ep, by simp, by simp only [true_iff]; exact ⟨⟨w, h⟩, h1, h2⟩⟩
      · have hw := h.2.1
        have ht := take_has h
        obtain ⟨p1, e1, hp1⟩ := C39_set (place := place.take w) (by simp; omega) ht setSym setAdd h1
        have hh1 := Patched.has ht hp1
        refine ⟨⟨.subOverflow, place, w⟩, ?_, by simp, by simp [h2]⟩
        rw [pair_start hn h, e1]
        have : apply p1 w true subSym subAdd = .ok ⟨.subOverflow, p1, w⟩ := by
          unfold apply; rw [fieldSize_of_has hh1.2.1 hh1]; simp [subSigned_none subSym subAdd h2]
        simp [this]
    · have hw := h.2.1
      have ht := take_has h
      refine ⟨⟨.setOverflow, place, w⟩, ?_, by simp, by simp [h1]⟩
      rw [pair_start hn h]
      have : apply (place.take w) w false setSym setAdd = .ok ⟨.setOverflow, place.take w, w⟩ := by
        unfold apply; rw [fieldSize_of_has (by simp; omega) ht]; simp [addSigned_none setSym setAdd h1]
      simp [this]
  · refine ⟨⟨st, place, 0⟩, ?_, by simp, ?_⟩
    · unfold applyPair; rw [e]; simp [hs]
    · simp only [hs, false_iff]
      rintro ⟨⟨w, hw⟩, _⟩
      exact h w hw

/-- **C39.** Applied one after the other, SET and SUB leave the difference as well: the
truncation of the absolute address in between does not matter. -/
theorem C39_set_then_sub {place : List Byte} {n w : Nat} (hn : n ≤ place.length) (h : HasField place n w)
    (setSym setAdd subSym subAdd : U64)
    (h1 : Fits (setSym.toNat + setAdd.toInt)) (h2 : Fits (subSym.toNat - subAdd.toInt)) :
    ∃ p1 p2, apply place n false setSym setAdd = .ok ⟨.ok, p1, w⟩ ∧ apply p1 n true subSym subAdd = .ok ⟨.ok, p2, w⟩ ∧
      Patched place p2 w ((setSym.toNat + setAdd.toInt) - (subSym.toNat - subAdd.toInt)) := by
  obtain ⟨p1, e1, hp1⟩ := C39_set hn h setSym setAdd h1
  have hh1 := Patched.has h hp1
  obtain ⟨p2, e2, hp2⟩ := C39_sub (place := p1) (n := n) (by have := hp1.1; omega) hh1 subSym subAdd h2
  refine ⟨p1, p2, e1, e2, ?_⟩
  obtain ⟨l1, d1, f1, v1⟩ := hp1
  obtain ⟨l2, d2, f2, v2⟩ := hp2
  exact ⟨by omega, by rw [d2, d1], f2, by rw [v2, v1, Int.emod_sub_emod]⟩

/-- A two-byte field followed by other data, patched with 0x80001234 − 0x80001100 = 308:
the field meets the hypotheses although the absolute addresses exceed its range. -/
example : HasField [0x80#8, 0x00#8, 0x55#8] 3 2 := by
  refine ⟨by decide, by decide, by decide, ⟨[0x80#8], 0#8, by decide, by decide, by decide⟩, by decide⟩

example : applyPair [0x80#8, 0x00#8, 0x55#8] 3 0x80001230#64 4#64 0x80001000#64 (-0x100#64) =
    .ok ⟨.ok, [0xB4#8, 0x02#8, 0x55#8], 2⟩ := by decide +kernel

/-- Rejected: no terminating byte; more than 64 bits. -/
example : apply [0x80#8, 0x81#8] 2 false 1#64 0#64 = .ok ⟨.truncated, [0x80#8, 0x81#8], 0⟩ := by decide +kernel

end Nature.Uleb
