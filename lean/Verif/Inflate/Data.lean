import Verif.Inflate.Header

/-!
# Blocks
-/

namespace Nature.Inflate

open Spec (bitsOf number Bits nextByte Symbol Copied Data Block Blocks lengthOf distanceOf Header)

/-! ### Copies -/

theorem copied_unique {out : List Spec.Byte} {n d : Nat} (hd : 1 ≤ d) (ho : d ≤ out.length) {o1 o2 : List Spec.Byte} (h1 : Copied out n d o1) (h2 : Copied out n d o2) : o1 = o2 := by
  obtain ⟨l1, p1, c1⟩ := h1
  obtain ⟨l2, p2, c2⟩ := h2
  apply List.ext_getElem?
  intro i
  induction i using Nat.strongRecOn with
  | ind i ih =>
    by_cases h : i < out.length
    · obtain ⟨t1, rfl⟩ := p1
      obtain ⟨t2, rfl⟩ := p2
      rw [List.getElem?_append_left h, List.getElem?_append_left h]
    · by_cases h' : i < o1.length
      · rw [c1 i (by omega) h', c2 i (by omega) (by omega)]
        exact ih (i - d) (by omega)
      · rw [List.getElem?_eq_none (by omega), List.getElem?_eq_none (by omega)]

theorem copyLoop_spec {size d : Nat} (hd : 1 ≤ d) : ∀ (n : Nat) (out : List Byte), out.length + n ≤ size → d ≤ out.length →
    ∃ o, copyLoop size d n out = .ok o ∧ Copied out n d o := by
  intro n
  induction n with
  | zero => intro out _ _; exact ⟨out, rfl, rfl, List.prefix_refl _, fun i h1 h2 => by omega⟩
  | succ n ih =>
    intro out h1 h2
    have hg : out[out.length - d]? = some out[out.length - d] := List.getElem?_eq_getElem (by omega)
    rw [copyLoop, if_pos (by omega), hg]
    obtain ⟨o, ho, l, p, c⟩ := ih (out ++ [out[out.length - d]]) (by simp; omega) (by simp; omega)
    refine ⟨o, ho, by rw [l]; simp; omega, (List.prefix_append _ _).trans p, fun i hi hi' => ?_⟩
    by_cases e : i = out.length
    · obtain ⟨t, rfl⟩ := p
      subst e
      rw [List.append_assoc, List.getElem?_append_right (Nat.le_refl _), Nat.sub_self, List.getElem?_append_left (l₁ := out) (by omega), hg]; rfl
    · exact c i (by simp; omega) hi'

theorem copied_length {out o : List Spec.Byte} {n d : Nat} (h : Copied out n d o) : o.length = out.length + n := h.1

/-! ### Data -/

theorem data_grows {w : Nat} {lit dist : List Nat} {out out' : List Spec.Byte} {b b' : List Bool} (h : Data w lit dist out b out' b') :
    out.length ≤ out'.length ∧ b'.length < b.length := by
  induction h with
  | literal h _ _ ih => have := symbol_shorter h; simp at ih; omega
  | fin h => exact ⟨Nat.le_refl _, symbol_shorter h⟩
  | copy h1 _ _ h2 h3 _ h4 _ _ h5 _ ih =>
    have := symbol_shorter h1
    have := bits_shorter h2
    have := symbol_shorter h3
    have := bits_shorter h4
    have := copied_length h5
    omega

/-- What follows the symbol `s`. -/
def DataFrom (w : Nat) (lit dist : List Nat) (out : List Spec.Byte) (s : Nat) (b1 : List Bool) (out' : List Spec.Byte) (b' : List Bool) : Prop :=
  (s < 256 ∧ Data w lit dist (out ++ [BitVec.ofNat 8 s]) b1 out' b') ∨ (s = 256 ∧ out' = out ∧ b' = b1) ∨
  (257 ≤ s ∧ s ≤ 285 ∧ ∃ x b2, Bits (lengthOf s).1 b1 x b2 ∧ ∃ d b3, Symbol dist b2 d b3 ∧ d ≤ 29 ∧ ∃ y b4, Bits (distanceOf d).1 b3 y b4 ∧
    (distanceOf d).2 + y ≤ w ∧ (distanceOf d).2 + y ≤ out.length ∧ ∃ out1, Copied out ((lengthOf s).2 + x) ((distanceOf d).2 + y) out1 ∧
    Data w lit dist out1 b4 out' b')

theorem data_iff {w : Nat} {lit dist : List Nat} {out out' : List Spec.Byte} {b b' : List Bool} :
    Data w lit dist out b out' b' ↔ ∃ s b1, Symbol lit b s b1 ∧ DataFrom w lit dist out s b1 out' b' := by
  constructor
  · intro h
    cases h with
    | literal h1 h2 h3 => exact ⟨_, _, h1, .inl ⟨h2, h3⟩⟩
    | fin h => exact ⟨_, _, h, .inr (.inl ⟨rfl, rfl, rfl⟩)⟩
    | copy h1 h2 h3 h4 h5 h6 h7 h8 h9 h10 h11 => exact ⟨_, _, h1, .inr (.inr ⟨h2, h3, _, _, h4, _, _, h5, h6, _, _, h7, h8, h9, _, h10, h11⟩)⟩
  · rintro ⟨s, b1, h1, ⟨h2, h3⟩ | ⟨rfl, rfl, rfl⟩ | ⟨h2, h3, x, b2, h4, d, b3, h5, h6, y, b4, h7, h8, h9, out1, h10, h11⟩⟩
    · exact .literal h1 h2 h3
    · exact .fin h1
    · exact .copy h1 h2 h3 h4 h5 h6 h7 h8 h9 h10 h11

theorem length_tables : ∀ i, i < 29 → look lengthExtra i = .ok (lengthOf (i + 257)).1 ∧ look lengthBase i = .ok (lengthOf (i + 257)).2 ∧
    (lengthOf (i + 257)).1 ≤ 16 ∧ 3 ≤ (lengthOf (i + 257)).2 ∧ (lengthOf (i + 257)).2 + 2 ^ (lengthOf (i + 257)).1 ≤ 259 := by
  have h : ∀ i, i < 29 → lengthExtra[i]? = some (lengthOf (i + 257)).1 ∧ lengthBase[i]? = some (lengthOf (i + 257)).2 ∧
    (lengthOf (i + 257)).1 ≤ 16 ∧ 3 ≤ (lengthOf (i + 257)).2 ∧ (lengthOf (i + 257)).2 + 2 ^ (lengthOf (i + 257)).1 ≤ 259 := by decide +kernel
  intro i hi
  obtain ⟨h1, h2, h3⟩ := h i hi
  exact ⟨by rw [look, h1], by rw [look, h2], h3⟩

theorem distance_tables : ∀ i, i < 30 → look distanceExtra i = .ok (distanceOf i).1 ∧ look distanceBase i = .ok (distanceOf i).2 ∧
    (distanceOf i).1 ≤ 16 ∧ 1 ≤ (distanceOf i).2 := by
  have h : ∀ i, i < 30 → distanceExtra[i]? = some (distanceOf i).1 ∧ distanceBase[i]? = some (distanceOf i).2 ∧
    (distanceOf i).1 ≤ 16 ∧ 1 ≤ (distanceOf i).2 := by decide +kernel
  intro i hi
  obtain ⟨h1, h2, h3⟩ := h i hi
  exact ⟨by rw [look, h1], by rw [look, h2], h3⟩

set_option maxRecDepth 10000 in
theorem decodeBlock_exact {size w : Nat} {lt dt : Tree} {lit dist : List Nat} (hl : IsTree lt lit) (hd : IsTree dt dist) : ∀ (fuel : Nat) (out : List Byte)
    (r : Reader), Inv r → (view r).length < fuel → out.length ≤ size →
    Exact (decodeBlock size w lt dt fuel out r) fun out' b' => Data w lit dist out (view r) out' b' ∧ out'.length ≤ size := by
  intro fuel
  induction fuel with
  | zero => intro out r _ h _; omega
  | succ fuel ih =>
    intro out r hi hf hs
    rw [decodeBlock]
    refine Exact.bind (decodeSymbol_exact hl hi) (R := fun s b1 out' b' => DataFrom w lit dist out s b1 out' b' ∧ out'.length ≤ size) ?_ ?_
    · intro s r1 _ hi1 hsym
      have hshort := symbol_shorter hsym
      simp only
      by_cases h256 : s < 256
      · rw [if_pos h256, writeLiteral]
        by_cases hfull : out.length ≥ size
        · rw [if_pos hfull]
          rintro a b ⟨⟨_, h⟩ | ⟨h, _⟩ | ⟨h, _⟩, hle⟩
          · have := (data_grows h).1
            simp at this
            omega
          · omega
          · omega
        · rw [if_neg hfull]
          refine (ih (out ++ [BitVec.ofNat 8 s]) r1 hi1 (by omega) (by simp; omega)).congr fun a b => ⟨?_, ?_⟩
          · rintro ⟨⟨_, h⟩ | ⟨h, _⟩ | ⟨h, _⟩, hle⟩
            · exact ⟨h, hle⟩
            · omega
            · omega
          · rintro ⟨h, hle⟩
            exact ⟨.inl ⟨h256, h⟩, hle⟩
      · rw [if_neg h256]
        by_cases he : s = 256
        · rw [if_pos he]
          refine (exact_ok hi1).congr fun a b => ⟨?_, ?_⟩
          · rintro ⟨⟨h, _⟩ | ⟨_, h⟩ | ⟨h, _⟩, hle⟩
            · omega
            · exact h
            · omega
          · rintro ⟨rfl, rfl⟩
            exact ⟨.inr (.inl ⟨he, rfl, rfl⟩), hs⟩
        · rw [if_neg he]
          by_cases hbad : s < 257 ∨ s > 285
          · rw [if_pos hbad]
            rintro a b ⟨⟨h, _⟩ | ⟨h, _⟩ | ⟨h, h', _⟩, hle⟩ <;> omega
          · rw [if_neg hbad]
            obtain ⟨t1, t2, t3, t4, t5⟩ := length_tables (s - 257) (by omega)
            rw [show s - 257 + 257 = s by omega] at t1 t2 t3 t4 t5
            rw [t1]
            show Exact ((readBits r1 (lengthOf s).1).bind _) _
            refine Exact.bind (readBits_exact hi1 t3) (R := fun x b2 out' b' => (∃ d b3, Symbol dist b2 d b3 ∧ d ≤ 29 ∧ ∃ y b4, Bits (distanceOf d).1 b3 y b4 ∧
              (distanceOf d).2 + y ≤ w ∧ (distanceOf d).2 + y ≤ out.length ∧ ∃ out1, Copied out ((lengthOf s).2 + x) ((distanceOf d).2 + y) out1 ∧
              Data w lit dist out1 b4 out' b') ∧ out'.length ≤ size) ?_ ?_
            · intro x r2 _ hi2 hx
              have hxlt := bits_lt hx
              have hxs := bits_shorter hx
              rw [t2]
              show Exact ((decodeSymbol r2 dt).bind _) _
              refine Exact.bind (decodeSymbol_exact hd hi2) (R := fun d b3 out' b' => (d ≤ 29 ∧ ∃ y b4, Bits (distanceOf d).1 b3 y b4 ∧
                (distanceOf d).2 + y ≤ w ∧ (distanceOf d).2 + y ≤ out.length ∧ ∃ out1, Copied out ((lengthOf s).2 + x) ((distanceOf d).2 + y) out1 ∧
                Data w lit dist out1 b4 out' b') ∧ out'.length ≤ size) ?_ ?_
              · intro d r3 _ hi3 hdsym
                have hds := symbol_shorter hdsym
                simp only
                by_cases hd29 : d > 29
                · rw [if_pos hd29]
                  rintro a b ⟨⟨h, _⟩, _⟩
                  omega
                · rw [if_neg hd29]
                  obtain ⟨u1, u2, u3, u4⟩ := distance_tables d (by omega)
                  rw [u1]
                  show Exact ((readBits r3 (distanceOf d).1).bind _) _
                  refine Exact.bind (readBits_exact hi3 u3) (R := fun y b4 out' b' => ((distanceOf d).2 + y ≤ w ∧ (distanceOf d).2 + y ≤ out.length ∧
                    ∃ out1, Copied out ((lengthOf s).2 + x) ((distanceOf d).2 + y) out1 ∧ Data w lit dist out1 b4 out' b') ∧ out'.length ≤ size) ?_ ?_
                  · intro y r4 _ hi4 hy
                    have hys := bits_shorter hy
                    rw [u2]
                    show Exact ((writeMatch size w out ((lengthOf s).2 + x) ((distanceOf d).2 + y)).bind _) _
                    rw [writeMatch]
                    by_cases hdist : (distanceOf d).2 + y = 0 ∨ (distanceOf d).2 + y > w ∨ (distanceOf d).2 + y > out.length
                    · rw [if_pos hdist]
                      rintro a b ⟨⟨h1, h2, _⟩, _⟩
                      omega
                    · rw [if_neg hdist, if_neg (by omega)]
                      by_cases hroom : (lengthOf s).2 + x > size - out.length
                      · rw [if_pos hroom]
                        rintro a b ⟨⟨h1, h2, out1, h3, h4⟩, h5⟩
                        have := copied_length h3
                        have := (data_grows h4).1
                        omega
                      · rw [if_neg hroom]
                        obtain ⟨o, ho, hc⟩ := copyLoop_spec (size := size) (d := (distanceOf d).2 + y) (by omega) ((lengthOf s).2 + x) out (by omega) (by omega)
                        have hol := copied_length hc
                        rw [ho]
                        show Exact (decodeBlock size w lt dt fuel o r4) _
                        refine (ih o r4 hi4 (by omega) (by omega)).congr fun a b => ⟨?_, ?_⟩
                        · rintro ⟨⟨h1, h2, out1, h3, h4⟩, h5⟩
                          rw [copied_unique (by omega) (by omega) h3 hc] at h4
                          exact ⟨h4, h5⟩
                        · rintro ⟨h4, h5⟩
                          exact ⟨⟨by omega, by omega, o, hc, h4⟩, h5⟩
                  · intro a b
                    constructor
                    · rintro ⟨⟨_, y, b4, h, h'⟩, h5⟩; exact ⟨y, b4, h, h', h5⟩
                    · rintro ⟨y, b4, h, h', h5⟩; exact ⟨⟨by omega, y, b4, h, h'⟩, h5⟩
              · intro a b
                constructor
                · rintro ⟨⟨d, b3, h, h'⟩, h5⟩; exact ⟨d, b3, h, h', h5⟩
                · rintro ⟨d, b3, h, h', h5⟩; exact ⟨⟨d, b3, h, h'⟩, h5⟩
            · intro a b
              constructor
              · rintro ⟨⟨h, _⟩ | ⟨h, _⟩ | ⟨_, _, x, b2, h, h'⟩, h5⟩
                · omega
                · omega
                · exact ⟨x, b2, h, h', h5⟩
              · rintro ⟨x, b2, h, h', h5⟩
                exact ⟨.inr (.inr ⟨by omega, by omega, x, b2, h, h'⟩), h5⟩
    · intro a b
      rw [data_iff]
      constructor
      · rintro ⟨⟨s, b1, h, h'⟩, h5⟩; exact ⟨s, b1, h, h', h5⟩
      · rintro ⟨s, b1, h, h', h5⟩; exact ⟨⟨s, b1, h, h'⟩, h5⟩

/-! ### Stored blocks -/

theorem readU16_exact {r : Reader} (h : AtByte r) : Exact (readU16 r) (Bits 16 (view r)) ∧ ∀ v r', readU16 r = .ok (v, r') → AtByte r' := by
  rw [h.view]
  cases hd : r.data.drop r.offset with
  | nil =>
    rw [readU16, readByte_nil h hd]
    refine ⟨?_, fun v r' e => by cases e⟩
    intro a b hb
    rw [Bits_iff, bitsOf_length] at hb
    simp at hb
  | cons x xs =>
    obtain ⟨h1, h2, h3⟩ := readByte_cons h hd
    rw [readU16, h1]
    cases xs with
    | nil =>
      have h4 := readByte_nil h2 h3
      show Exact ((readByte { r with offset := r.offset + 1 }).bind _) _ ∧ ∀ v r', (readByte { r with offset := r.offset + 1 }).bind _ = .ok (v, r') → _
      rw [h4]
      refine ⟨?_, fun v r' e => by cases e⟩
      intro a b hb
      rw [Bits_iff, bitsOf_length] at hb
      simp at hb
    | cons y ys =>
      obtain ⟨h4, h5, h6⟩ := readByte_cons h2 h3
      show Exact ((readByte { r with offset := r.offset + 1 }).bind _) _ ∧ ∀ v r', (readByte { r with offset := r.offset + 1 }).bind _ = .ok (v, r') → _
      rw [h4]
      refine ⟨⟨h5.inv, fun a b => ?_⟩, fun v r' e => ?_⟩
      · rw [h5.view]
        simp only at h6 ⊢
        rw [h6, Bits_iff, bitsOf_cons, bitsOf_cons, ← List.append_assoc]
        have hlen : (natBits 8 x.toNat ++ natBits 8 y.toNat).length = 16 := by simp [natBits_length]
        rw [List.take_left' hlen, List.drop_left' hlen, bytes_number, List.length_append, hlen, or_shift _ _ 8 x.isLt]
        simp
      · cases e
        exact h5

theorem xor_ones {x : Nat} (h : x < 65536) : x ^^^ 0xffff = 65535 - x := by
  have h1 : ((BitVec.ofNat 16 x) ^^^ BitVec.allOnes 16).toNat = x ^^^ 0xffff := by
    rw [BitVec.toNat_xor, BitVec.toNat_ofNat, Nat.mod_eq_of_lt h]; rfl
  rw [← h1, BitVec.xor_allOnes, BitVec.toNat_not, BitVec.toNat_ofNat, Nat.mod_eq_of_lt h]

theorem storedBlock_exact {size : Nat} {out : List Byte} {r : Reader} (hi : Inv r) (hs : out.length ≤ size) :
    Exact (storedBlock size out r) fun out' b' => (∃ len b2 nlen b3 bytes, Bits 16 (nextByte (view r)) len b2 ∧ Bits 16 b2 nlen b3 ∧ len + nlen = 65535 ∧
      bytes.length = len ∧ b3 = bitsOf bytes ++ b' ∧ out' = out ++ bytes) ∧ out'.length ≤ size := by
  obtain ⟨ha, hv⟩ := align_spec hi
  obtain ⟨e1, a1⟩ := readU16_exact ha
  rw [hv] at e1
  rw [storedBlock]
  refine Exact.bind e1 (R := fun len b2 out' b' => (∃ nlen b3 bytes, Bits 16 b2 nlen b3 ∧ len + nlen = 65535 ∧
      bytes.length = len ∧ b3 = bitsOf bytes ++ b' ∧ out' = out ++ bytes) ∧ out'.length ≤ size) ?_ ?_
  · intro len r1 er1 hi1 hlen
    obtain ⟨e2, a2⟩ := readU16_exact (a1 _ _ er1)
    refine Exact.bind e2 (R := fun nlen b3 out' b' => (∃ bytes, len + nlen = 65535 ∧
      bytes.length = len ∧ b3 = bitsOf bytes ++ b' ∧ out' = out ++ bytes) ∧ out'.length ≤ size) ?_ ?_
    · intro nlen r2 er2 hi2 hnlen
      have b1 := bits_lt hlen
      have b2 := bits_lt hnlen
      have ha2 := a2 _ _ er2
      simp only
      rw [xor_ones b1]
      by_cases hne : nlen ≠ 65535 - len
      · rw [if_pos hne]
        rintro a b ⟨⟨bytes, h, _⟩, _⟩
        omega
      · rw [if_neg hne]
        by_cases hroom : len > size - out.length
        · rw [if_pos hroom]
          rintro a b ⟨⟨bytes, _, h1, _, rfl⟩, h2⟩
          rw [List.length_append] at h2
          omega
        · rw [if_neg hroom]
          by_cases htr : len > r2.data.length - r2.offset
          · rw [if_pos htr]
            rintro a b ⟨⟨bytes, _, h1, h2, _⟩, _⟩
            have := congrArg List.length h2
            rw [ha2.view, List.length_append, bitsOf_length, bitsOf_length, List.length_drop] at this
            omega
          · rw [if_neg htr]
            have ho := ha2.offset
            have ha3 : AtByte { r2 with offset := r2.offset + len } := ⟨ha2.bits, ha2.bitCount, by simp only; omega⟩
            have hsplit : view r2 = bitsOf ((r2.data.drop r2.offset).take len) ++ view { r2 with offset := r2.offset + len } := by
              rw [ha2.view, ha3.view]
              simp only
              rw [← List.drop_drop, ← bitsOf_append, List.take_append_drop]
            have htl : ((r2.data.drop r2.offset).take len).length = len := by rw [List.length_take, List.length_drop]; omega
            refine ⟨ha3.inv, fun a b => ⟨?_, ?_⟩⟩
            · rintro ⟨⟨bytes, _, h1, h2, rfl⟩, _⟩
              rw [hsplit] at h2
              obtain ⟨h3, h4⟩ := List.append_inj h2 (by rw [bitsOf_length, bitsOf_length, htl, h1])
              rw [bitsOf_inj _ _ h3]
              exact ⟨rfl, h4.symm⟩
            · rintro ⟨rfl, rfl⟩
              exact ⟨⟨_, by omega, htl, hsplit, rfl⟩, by rw [List.length_append, htl]; omega⟩
    · intro a b
      constructor
      · rintro ⟨⟨nlen, b3, bytes, h, h'⟩, h5⟩; exact ⟨nlen, b3, h, ⟨bytes, h'⟩, h5⟩
      · rintro ⟨nlen, b3, h, ⟨bytes, h'⟩, h5⟩; exact ⟨⟨nlen, b3, bytes, h, h'⟩, h5⟩
  · intro a b
    constructor
    · rintro ⟨⟨len, b2, nlen, b3, bytes, h, h'⟩, h5⟩; exact ⟨len, b2, h, ⟨nlen, b3, bytes, h'⟩, h5⟩
    · rintro ⟨len, b2, h, ⟨nlen, b3, bytes, h'⟩, h5⟩; exact ⟨⟨len, b2, nlen, b3, bytes, h, h'⟩, h5⟩

/-! ### Blocks -/

theorem nextByte_shorter (b : List Bool) : (nextByte b).length ≤ b.length := by rw [nextByte, List.length_drop]; omega

theorem next_shorter {n : Nat} {b b' : List Bool} {v : Nat} (h : Bits n (nextByte b) v b') : b'.length ≤ b.length :=
  Nat.le_trans (bits_shorter h) (nextByte_shorter b)

theorem block_grows {w : Nat} {out out' : List Spec.Byte} {b b' : List Bool} (h : Block w out b out' b') : out.length ≤ out'.length ∧ b'.length ≤ b.length := by
  cases h with
  | stored h1 h2 h3 _ _ h4 =>
    have := bits_shorter h1
    have := bits_shorter h2
    have := bits_shorter h3
    have hn := next_shorter h2
    have h4 := congrArg List.length h4
    rw [List.length_append] at h4 ⊢
    omega
  | fixed h1 h2 => have := bits_shorter h1; have := data_grows h2; omega
  | dynamic h1 h2 h3 => have := bits_shorter h1; have := header_shorter h2; have := data_grows h3; omega

theorem blocks_grow {w : Nat} {out out' : List Spec.Byte} {b b' : List Bool} (h : Blocks w out b out' b') : out.length ≤ out'.length := by
  induction h with
  | last _ h => exact (block_grows h).1
  | more _ h _ ih => have := (block_grows h).1; omega

/-- What follows the kind of a block. -/
def BlockFrom (w : Nat) (out : List Spec.Byte) (k : Nat) (b1 : List Bool) (out' : List Spec.Byte) (b' : List Bool) : Prop :=
  (k = 0 ∧ ∃ len b2 nlen b3 bytes, Bits 16 (nextByte b1) len b2 ∧ Bits 16 b2 nlen b3 ∧ len + nlen = 65535 ∧
    bytes.length = len ∧ b3 = bitsOf bytes ++ b' ∧ out' = out ++ bytes) ∨
  (k = 1 ∧ Data w ((List.range 288).map Spec.fixedLiteral) (List.replicate 32 5) out b1 out' b') ∨
  (k = 2 ∧ ∃ lit dist b2, Header b1 lit dist b2 ∧ Data w lit dist out b2 out' b')

theorem block_iff {w : Nat} {out out' : List Spec.Byte} {b b' : List Bool} :
    Block w out b out' b' ↔ ∃ k b1, Bits 2 b k b1 ∧ BlockFrom w out k b1 out' b' := by
  constructor
  · intro h
    cases h with
    | stored h1 h2 h3 h4 h5 h6 => exact ⟨_, _, h1, .inl ⟨rfl, _, _, _, _, _, h2, h3, h4, h5, h6, rfl⟩⟩
    | fixed h1 h2 => exact ⟨_, _, h1, .inr (.inl ⟨rfl, h2⟩)⟩
    | dynamic h1 h2 h3 => exact ⟨_, _, h1, .inr (.inr ⟨rfl, _, _, _, h2, h3⟩)⟩
  · rintro ⟨k, b1, h1, ⟨rfl, len, b2, nlen, b3, bytes, h2, h3, h4, h5, h6, rfl⟩ | ⟨rfl, h2⟩ | ⟨rfl, lit, dist, b2, h2, h3⟩⟩
    · exact .stored h1 h2 h3 h4 h5 h6
    · exact .fixed h1 h2
    · exact .dynamic h1 h2 h3

set_option maxRecDepth 10000 in
/-- One block behind its kind. -/
theorem block_exact {size w fuel : Nat} {out : List Byte} {k : Nat} {r : Reader} (hi : Inv r) (hs : out.length ≤ size) (hf : (view r).length < fuel) :
    Exact (if k = 0 then storedBlock size out r
      else if k = 1 then fixedTrees.bind fun t => decodeBlock size w t.1 t.2 fuel out r
      else if k = 2 then (dynamicTrees r).bind fun t => decodeBlock size w t.1.1 t.1.2 fuel out t.2
      else .err .invalidBlockType) fun out' b' => BlockFrom w out k (view r) out' b' ∧ out'.length ≤ size := by
  by_cases h0 : k = 0
  · rw [if_pos h0]
    refine (storedBlock_exact hi hs).congr fun a b => ⟨?_, ?_⟩
    · rintro ⟨⟨_, h⟩ | ⟨h, _⟩ | ⟨h, _⟩, h5⟩
      · exact ⟨h, h5⟩
      · omega
      · omega
    · rintro ⟨h, h5⟩
      exact ⟨.inl ⟨h0, h⟩, h5⟩
  · rw [if_neg h0]
    by_cases h1 : k = 1
    · rw [if_pos h1]
      obtain ⟨lt, dt, he, hl, hd⟩ := fixedTrees_spec
      rw [he]
      show Exact (decodeBlock size w lt dt fuel out r) _
      refine (decodeBlock_exact hl hd fuel out r hi hf hs).congr fun a b => ⟨?_, ?_⟩
      · rintro ⟨⟨h, _⟩ | ⟨_, h⟩ | ⟨h, _⟩, h5⟩
        · omega
        · exact ⟨h, h5⟩
        · omega
      · rintro ⟨h, h5⟩
        exact ⟨.inr (.inl ⟨h1, h⟩), h5⟩
    · rw [if_neg h1]
      by_cases h2 : k = 2
      · rw [if_pos h2]
        have ht := dynamicTrees_spec hi
        revert ht
        generalize dynamicTrees r = y
        intro ht
        cases y with
        | fault => exact ht
        | err e =>
          rintro a b ⟨⟨h, _⟩ | ⟨h, _⟩ | ⟨_, lit, dist, b2, h, _⟩, h5⟩
          · omega
          · omega
          · exact ht lit dist b2 h
        | ok p =>
          obtain ⟨lit, dist, hl, hd, hi', hh⟩ := ht
          have hsh := header_shorter ((hh lit dist (view p.2)).2 ⟨rfl, rfl, rfl⟩)
          show Exact (decodeBlock size w p.1.1 p.1.2 fuel out p.2) _
          refine (decodeBlock_exact hl hd fuel out p.2 hi' (by omega) hs).congr fun a b => ⟨?_, ?_⟩
          · rintro ⟨⟨h, _⟩ | ⟨h, _⟩ | ⟨_, lit', dist', b2, h, h'⟩, h5⟩
            · omega
            · omega
            · obtain ⟨rfl, rfl, rfl⟩ := (hh _ _ _).1 h
              exact ⟨h', h5⟩
          · rintro ⟨h, h5⟩
            exact ⟨.inr (.inr ⟨h2, lit, dist, _, (hh _ _ _).2 ⟨rfl, rfl, rfl⟩, h⟩), h5⟩
      · rw [if_neg h2]
        rintro a b ⟨⟨h, _⟩ | ⟨h, _⟩ | ⟨h, _⟩, h5⟩ <;> omega

theorem blocks_iff {w : Nat} {out out' : List Spec.Byte} {b b' : List Bool} :
    Blocks w out b out' b' ↔ ∃ f b1, Bits 1 b f b1 ∧ ∃ out1 b2, Block w out b1 out1 b2 ∧
      ((f = 1 ∧ out' = out1 ∧ b' = b2) ∨ (f = 0 ∧ Blocks w out1 b2 out' b')) := by
  constructor
  · intro h
    cases h with
    | last h1 h2 => exact ⟨_, _, h1, _, _, h2, .inl ⟨rfl, rfl, rfl⟩⟩
    | more h1 h2 h3 => exact ⟨_, _, h1, _, _, h2, .inr ⟨rfl, h3⟩⟩
  · rintro ⟨f, b1, h1, out1, b2, h2, ⟨rfl, rfl, rfl⟩ | ⟨rfl, h3⟩⟩
    · exact .last h1 h2
    · exact .more h1 h2 h3

theorem bits_strict {n : Nat} {b b' : List Bool} {v : Nat} (h : Bits n b v b') : b'.length + n = b.length := by
  obtain ⟨bs, h1, rfl, _⟩ := h
  rw [List.length_append]; omega

theorem decodeBlocks_exact {size w : Nat} : ∀ (fuel : Nat) (out : List Byte) (r : Reader), Inv r → (view r).length < fuel → out.length ≤ size →
    Exact (decodeBlocks size w fuel out r) fun out' b' => Blocks w out (view r) out' b' ∧ out'.length ≤ size := by
  intro fuel
  induction fuel with
  | zero => intro out r _ h _; omega
  | succ fuel ih =>
    intro out r hi hf hs
    rw [decodeBlocks]
    refine Exact.bind (readBits_exact hi (by omega)) (R := fun f b1 out' b' => (∃ out1 b2, Block w out b1 out1 b2 ∧
      ((f = 1 ∧ out' = out1 ∧ b' = b2) ∨ (f = 0 ∧ Blocks w out1 b2 out' b'))) ∧ out'.length ≤ size) ?_ ?_
    · intro f r1 _ hi1 hfb
      have hs1 := bits_strict hfb
      have hflt := bits_lt hfb
      refine Exact.bind (readBits_exact hi1 (by omega)) (R := fun k b2 out' b' => (∃ out1 b3, BlockFrom w out k b2 out1 b3 ∧
        ((f = 1 ∧ out' = out1 ∧ b' = b3) ∨ (f = 0 ∧ Blocks w out1 b3 out' b'))) ∧ out'.length ≤ size) ?_ ?_
      · intro k r2 _ hi2 hkb
        have hs2 := bits_strict hkb
        have hv := view_lt hi
        refine Exact.bind (block_exact (k := k) hi2 hs (show (view r2).length < 8 * r.data.length + 8 by omega))
          (R := fun out1 b3 out' b' => ((f = 1 ∧ out' = out1 ∧ b' = b3) ∨ (f = 0 ∧ Blocks w out1 b3 out' b')) ∧ out'.length ≤ size) ?_ ?_
        · rintro out1 r3 _ hi3 ⟨hbf, hle⟩
          have hsh := (block_grows (block_iff.2 ⟨k, _, hkb, hbf⟩)).2
          simp only
          by_cases hf0 : f ≠ 0
          · rw [if_pos hf0]
            refine (exact_ok hi3).congr fun a b => ⟨?_, ?_⟩
            · rintro ⟨⟨_, h⟩ | ⟨h, _⟩, _⟩
              · exact h
              · omega
            · rintro ⟨rfl, rfl⟩
              exact ⟨.inl ⟨by omega, rfl, rfl⟩, hle⟩
          · rw [if_neg hf0]
            refine (ih out1 r3 hi3 (by omega) hle).congr fun a b => ⟨?_, ?_⟩
            · rintro ⟨⟨h, _⟩ | ⟨_, h⟩, h5⟩
              · omega
              · exact ⟨h, h5⟩
            · rintro ⟨h, h5⟩
              exact ⟨.inr ⟨by omega, h⟩, h5⟩
        · intro a b
          constructor
          · rintro ⟨⟨out1, b3, h, h'⟩, h5⟩
            refine ⟨out1, b3, ⟨h, ?_⟩, h', h5⟩
            rcases h' with ⟨_, rfl, _⟩ | ⟨_, h'⟩
            · exact h5
            · have := blocks_grow h'; omega
          · rintro ⟨out1, b3, ⟨h, _⟩, h', h5⟩
            exact ⟨⟨out1, b3, h, h'⟩, h5⟩
      · intro a b
        constructor
        · rintro ⟨⟨out1, b3, h, h'⟩, h5⟩
          obtain ⟨k, b2, h1, h2⟩ := block_iff.1 h
          exact ⟨k, b2, h1, ⟨out1, b3, h2, h'⟩, h5⟩
        · rintro ⟨k, b2, h1, ⟨out1, b3, h2, h'⟩, h5⟩
          exact ⟨⟨out1, b3, block_iff.2 ⟨k, b2, h1, h2⟩, h'⟩, h5⟩
    · intro a b
      rw [blocks_iff]
      constructor
      · rintro ⟨⟨f, b1, h, h'⟩, h5⟩; exact ⟨f, b1, h, h', h5⟩
      · rintro ⟨f, b1, h, h', h5⟩; exact ⟨⟨f, b1, h, h'⟩, h5⟩

end Nature.Inflate
