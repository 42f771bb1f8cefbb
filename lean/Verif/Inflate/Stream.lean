import Verif.Inflate.Data

/-!
# Checksum and the whole stream
-/

namespace Nature.Inflate

open Spec (bitsOf number Bits nextByte Blocks sums Stream)

/-! ### Adler-32 -/

def tri : Nat → Nat
  | 0 => 0
  | n + 1 => tri n + (n + 1)

theorem tri_two (n : Nat) : 2 * tri n = n * (n + 1) := by
  induction n with
  | zero => rfl
  | succ n ih => rw [tri, Nat.mul_add, ih, Nat.succ_mul n, Nat.mul_succ n (n + 1)]; omega

theorem tri_mono {n m : Nat} (h : n ≤ m) : tri n ≤ tri m := by
  induction m with
  | zero => rw [show n = 0 by omega]; exact Nat.le_refl _
  | succ m ih =>
    by_cases e : n = m + 1
    · rw [e]; exact Nat.le_refl _
    · have := ih (by omega); rw [tri]; omega

/-- Inside a chunk nothing overflows. -/
theorem adlerChunk_spec : ∀ (bs : List Byte) (a b : Nat), a + 255 * bs.length < 2 ^ 32 → b + bs.length * a + 255 * tri bs.length < 2 ^ 32 →
    sums bs (a % 65521, b % 65521) = ((adlerChunk bs (a, b)).1 % 65521, (adlerChunk bs (a, b)).2 % 65521) := by
  intro bs
  induction bs with
  | nil => intro a b _ _; rfl
  | cons v bs ih =>
    intro a b ha hb
    have hv : v.toNat ≤ 255 := by have := v.isLt; omega
    rw [List.length_cons, tri, Nat.succ_mul] at hb
    rw [List.length_cons] at ha
    have hnv : bs.length * v.toNat ≤ 255 * bs.length := by rw [Nat.mul_comm 255]; exact Nat.mul_le_mul_left _ hv
    have e1 : (a + v.toNat) % 2 ^ 32 = a + v.toNat := Nat.mod_eq_of_lt (by omega)
    have e2 : (b + (a + v.toNat)) % 2 ^ 32 = b + (a + v.toNat) := Nat.mod_eq_of_lt (by omega)
    rw [adlerChunk, sums]
    simp only [e1, e2]
    rw [show (a % 65521 + v.toNat) % 65521 = (a + v.toNat) % 65521 by omega,
      show (b % 65521 + (a + v.toNat) % 65521) % 65521 = (b + (a + v.toNat)) % 65521 by omega]
    exact ih _ _ (by omega) (by rw [Nat.mul_add]; omega)

theorem sums_append : ∀ (x y : List Spec.Byte) (s : Nat × Nat), sums (x ++ y) s = sums y (sums x s) := by
  intro x
  induction x with
  | nil => intro y s; rfl
  | cons b x ih => intro y s; rw [List.cons_append, sums, sums, ih]

theorem adlerLoop_spec : ∀ (n : Nat) (data : List Byte), data.length = n → ∀ a b, a < 65521 → b < 65521 → adlerLoop data a b = sums data (a, b) := by
  intro n
  induction n using Nat.strongRecOn with
  | ind n ih =>
    intro data hn a b ha hb
    rw [adlerLoop]
    by_cases h0 : data.length = 0
    · rw [if_pos h0, List.length_eq_zero_iff.1 h0]; rfl
    · rw [if_neg h0]
      simp only
      generalize hc : (if data.length < 5552 then data.length else 5552) = c
      have hc1 : 1 ≤ c ∧ c ≤ 5552 := by split at hc <;> omega
      have hlen : (data.take c).length ≤ 5552 := by rw [List.length_take]; omega
      have ht := tri_mono hlen
      have h2 := tri_two 5552
      have hmul : (data.take c).length * a ≤ 5552 * 65520 := Nat.mul_le_mul hlen (by omega)
      have hs := adlerChunk_spec (data.take c) a b (by omega) (by omega)
      rw [Nat.mod_eq_of_lt ha, Nat.mod_eq_of_lt hb] at hs
      rw [ih (data.drop c).length (by rw [List.length_drop]; omega) _ rfl _ _ (Nat.mod_lt _ (by omega)) (Nat.mod_lt _ (by omega)), ← hs, ← sums_append,
        List.take_append_drop]

theorem sums_lt : ∀ (bs : List Spec.Byte) (s : Nat × Nat), s.1 < 65521 → s.2 < 65521 → (sums bs s).1 < 65521 ∧ (sums bs s).2 < 65521 := by
  intro bs
  induction bs with
  | nil => intro s h1 h2; exact ⟨h1, h2⟩
  | cons b bs ih => intro s h1 h2; rw [sums]; exact ih _ (Nat.mod_lt _ (by omega)) (Nat.mod_lt _ (by omega))

theorem adler32_eq (data : List Byte) : adler32 data = Spec.adler32 data := by
  rw [adler32, Spec.adler32, adlerLoop_spec _ data rfl 1 0 (by omega) (by omega)]
  obtain ⟨h1, h2⟩ := sums_lt data (1, 0) (by decide) (by decide)
  rw [Nat.or_comm, or_shift _ _ 16 (by omega)]
  rw [Nat.mod_eq_of_lt (by omega)]
  omega

/-! ### The end -/

theorem be32 (a b c d : Byte) : a.toNat <<< 24 ||| b.toNat <<< 16 ||| c.toNat <<< 8 ||| d.toNat =
    a.toNat * 2 ^ 24 + b.toNat * 2 ^ 16 + c.toNat * 2 ^ 8 + d.toNat := by
  have ha := a.isLt
  have hb := b.isLt
  have hc := c.isLt
  have hd := d.isLt
  have e1 : a.toNat <<< 24 ||| b.toNat <<< 16 = (a.toNat * 256 + b.toNat) <<< 16 := by
    rw [Nat.or_comm, show a.toNat <<< 24 = (a.toNat <<< 8) <<< 16 by rw [← Nat.shiftLeft_add], ← Nat.shiftLeft_or_distrib, or_shift _ _ 8 hb]
    congr 1
    omega
  have e2 : (a.toNat * 256 + b.toNat) <<< 16 ||| c.toNat <<< 8 = ((a.toNat * 256 + b.toNat) * 256 + c.toNat) <<< 8 := by
    rw [Nat.or_comm, show (a.toNat * 256 + b.toNat) <<< 16 = ((a.toNat * 256 + b.toNat) <<< 8) <<< 8 by rw [← Nat.shiftLeft_add],
      ← Nat.shiftLeft_or_distrib, or_shift _ _ 8 hc]
    congr 1
    omega
  rw [e1, e2, Nat.or_comm, or_shift _ _ 8 hd]
  omega

theorem finish_spec {size : Nat} {out : List Byte} {r : Reader} (hi : Inv r) : finish size out r ≠ .fault ∧ ∀ o, finish size out r = .ok o ↔
    o = out ∧ out.length = size ∧ ∃ a b c d : Byte, nextByte (view r) = bitsOf [a, b, c, d] ∧
      a.toNat * 2 ^ 24 + b.toNat * 2 ^ 16 + c.toNat * 2 ^ 8 + d.toNat = Spec.adler32 out := by
  obtain ⟨ha, hv⟩ := align_spec hi
  rw [← hv, ha.view, finish]
  have short : ∀ l : List Byte, l.length < 4 → ∀ {P : Prop}, ¬ (P ∧ out.length = size ∧ ∃ a b c d : Byte, bitsOf l = bitsOf [a, b, c, d] ∧
      a.toNat * 2 ^ 24 + b.toNat * 2 ^ 16 + c.toNat * 2 ^ 8 + d.toNat = Spec.adler32 out) := by
    rintro l hl P ⟨_, _, a, b, c, d, h, _⟩
    rw [bitsOf_inj _ _ h] at hl
    simp at hl
  generalize align r = r0 at *
  cases h0 : r0.data.drop r0.offset with
  | nil =>
    rw [readByte_nil ha h0]
    refine ⟨fun h => (by cases h), fun o => ⟨fun h => (by cases h), fun h => absurd h (short _ (by simp))⟩⟩
  | cons a l =>
    obtain ⟨e1, a1, d1⟩ := readByte_cons ha h0
    rw [e1, Res.bind]
    cases l with
    | nil =>
      simp only
      rw [readByte_nil a1 d1]
      refine ⟨fun h => (by cases h), fun o => ⟨fun h => (by cases h), fun h => absurd h (short _ (by simp))⟩⟩
    | cons b l =>
      obtain ⟨e2, a2, d2⟩ := readByte_cons a1 d1
      simp only
      rw [e2, Res.bind]
      cases l with
      | nil =>
        simp only
        rw [readByte_nil a2 d2]
        refine ⟨fun h => (by cases h), fun o => ⟨fun h => (by cases h), fun h => absurd h (short _ (by simp))⟩⟩
      | cons c l =>
        obtain ⟨e3, a3, d3⟩ := readByte_cons a2 d2
        simp only at e3 ⊢
        rw [e3, Res.bind]
        cases l with
        | nil =>
          simp only
          rw [readByte_nil a3 d3]
          refine ⟨fun h => (by cases h), fun o => ⟨fun h => (by cases h), fun h => absurd h (short _ (by simp))⟩⟩
        | cons d l =>
          obtain ⟨e4, a4, d4⟩ := readByte_cons a3 d3
          simp only at e4 d4 ⊢
          rw [e4, Res.bind]
          simp only
          rw [be32, adler32_eq]
          have hlen := congrArg List.length d4
          rw [List.length_drop] at hlen
          have ho := a4.offset
          simp only at ho
          by_cases h1 : r0.offset + 1 + 1 + 1 + 1 ≠ r0.data.length
          · rw [if_pos h1]
            refine ⟨fun h => (by cases h), fun o => ⟨fun h => (by cases h), ?_⟩⟩
            rintro ⟨_, _, a', b', c', d', h, _⟩
            have := congrArg List.length (bitsOf_inj _ _ h)
            simp at this
            subst this
            simp at hlen
            omega
          · rw [if_neg h1]
            have hl0 : l = [] := List.length_eq_zero_iff.1 (by omega)
            subst hl0
            by_cases h2 : out.length ≠ size
            · rw [if_pos h2]
              exact ⟨fun h => (by cases h), fun o => ⟨fun h => (by cases h), fun h => absurd h.2.1 h2⟩⟩
            · rw [if_neg h2]
              by_cases h3 : Spec.adler32 out ≠ a.toNat * 2 ^ 24 + b.toNat * 2 ^ 16 + c.toNat * 2 ^ 8 + d.toNat
              · rw [if_pos h3]
                refine ⟨fun h => (by cases h), fun o => ⟨fun h => (by cases h), ?_⟩⟩
                rintro ⟨_, _, a', b', c', d', h, h'⟩
                have := bitsOf_inj _ _ h
                simp only [List.cons.injEq, and_true] at this
                obtain ⟨rfl, rfl, rfl, rfl⟩ := this
                exact absurd h'.symm h3
              · rw [if_neg h3]
                refine ⟨fun h => (by cases h), fun o => ⟨fun h => ?_, ?_⟩⟩
                · cases h
                  exact ⟨rfl, by omega, a, b, c, d, rfl, by omega⟩
                · rintro ⟨rfl, _⟩; rfl

/-! ### The header -/

theorem bytes_all {P : Byte → Prop} (h : ∀ n, n < 256 → P (BitVec.ofNat 8 n)) (b : Byte) : P b := by
  have := h b.toNat b.isLt
  rw [BitVec.ofNat_toNat] at this
  simpa using this

theorem cmf_spec (b : Byte) : (b &&& 0x0f = 8 ↔ b.toNat % 16 = 8) ∧ (b >>> 4).toNat = b.toNat / 16 := by
  refine bytes_all (P := fun b => (b &&& 0x0f = 8 ↔ b.toNat % 16 = 8) ∧ (b >>> 4).toNat = b.toNat / 16) ?_ b
  decide +kernel

theorem flg_spec (b : Byte) : b &&& 0x20 ≠ 0 ↔ b.getLsbD 5 = true := by
  refine bytes_all (P := fun b => b &&& 0x20 ≠ 0 ↔ b.getLsbD 5 = true) ?_ b
  decide +kernel

/-- The two bytes at the beginning. -/
def Start (cmf flg : Byte) : Prop := cmf.toNat % 16 = 8 ∧ cmf.toNat / 16 ≤ 7 ∧ (cmf.toNat * 256 + flg.toNat) % 31 = 0 ∧ flg.getLsbD 5 = false

theorem start_reader (cmf flg : Byte) (rest : List Byte) : AtByte ⟨cmf :: flg :: rest, 2, 0, 0⟩ ∧ view ⟨cmf :: flg :: rest, 2, 0, 0⟩ = bitsOf rest := by
  have : AtByte ⟨cmf :: flg :: rest, 2, 0, 0⟩ := ⟨rfl, rfl, by simp⟩
  exact ⟨this, this.view⟩

theorem decompress_short {input : List Byte} (size : Nat) (h : input.length < 2) : decompress input size = .err .truncated := by
  match input, h with
  | [], _ => rfl
  | [_], _ => rfl

theorem decompress_eq (cmf flg : Byte) (rest : List Byte) (size : Nat) :
    (¬ Start cmf flg ∧ ∃ e, decompress (cmf :: flg :: rest) size = .err e) ∨
    (Start cmf flg ∧ decompress (cmf :: flg :: rest) size =
      (decodeBlocks size (2 ^ (cmf.toNat / 16 + 8)) (8 * (cmf :: flg :: rest).length + 8) [] ⟨cmf :: flg :: rest, 2, 0, 0⟩).bind fun p => finish size p.1 p.2) := by
  obtain ⟨h1, h2⟩ := cmf_spec cmf
  have h3 := flg_spec flg
  rw [decompress, h2]
  have hor : cmf.toNat <<< 8 ||| flg.toNat = cmf.toNat * 256 + flg.toNat := by rw [Nat.or_comm, or_shift _ _ 8 flg.isLt]; omega
  rw [hor]
  by_cases hb : cmf &&& 0x0f ≠ 8 ∨ cmf.toNat / 16 > 7 ∨ (cmf.toNat * 256 + flg.toNat) % 31 ≠ 0
  · rw [if_pos hb]
    refine .inl ⟨?_, _, rfl⟩
    rintro ⟨a, b, c, d⟩
    rcases hb with hb | hb | hb
    · exact hb (h1.2 a)
    · omega
    · omega
  · rw [if_neg hb]
    have k1 : cmf &&& 0x0f = 8 := Decidable.byContradiction fun h => hb (.inl h)
    by_cases hd : flg &&& 0x20 ≠ 0
    · rw [if_pos hd]
      refine .inl ⟨?_, _, rfl⟩
      rintro ⟨a, b, c, d⟩
      rw [h3.1 hd] at d
      cases d
    · rw [if_neg hd]
      simp only
      have hp : (1 : Nat) <<< (cmf.toNat / 16 + 8) = 2 ^ (cmf.toNat / 16 + 8) := by rw [Nat.shiftLeft_eq, Nat.one_mul]
      have hle : 2 ^ (cmf.toNat / 16 + 8) ≤ 2 ^ 15 := Nat.pow_le_pow_right (by omega) (by omega)
      rw [hp, if_neg (by omega)]
      refine .inr ⟨⟨h1.1 k1, by omega, by omega, ?_⟩, rfl⟩
      cases h : flg.getLsbD 5 with
      | false => rfl
      | true => exact absurd (h3.2 h) hd

theorem stream_iff {input out : List Spec.Byte} : Stream input out ↔ ∃ (cmf flg : Byte) (rest : List Byte), input = cmf :: flg :: rest ∧ Start cmf flg ∧
    ∃ b', Blocks (2 ^ (cmf.toNat / 16 + 8)) [] (bitsOf rest) out b' ∧ ∃ a b c d : Byte, nextByte b' = bitsOf [a, b, c, d] ∧
      a.toNat * 2 ^ 24 + b.toNat * 2 ^ 16 + c.toNat * 2 ^ 8 + d.toNat = Spec.adler32 out := by
  constructor
  · rintro ⟨cm, cinfo, cmf, flg, rest, b', a, b, c, d, h1, h2, h3, h4, h5, h6, h7, h8, h9⟩
    have hc : cmf.toNat / 16 = cinfo := by omega
    refine ⟨cmf, flg, rest, h1, ⟨by omega, by omega, h5, h6⟩, b', ?_, a, b, c, d, h8, h9⟩
    rw [hc]; exact h7
  · rintro ⟨cmf, flg, rest, h1, ⟨h2, h3, h4, h5⟩, b', h7, a, b, c, d, h8, h9⟩
    exact ⟨8, cmf.toNat / 16, cmf, flg, rest, b', a, b, c, d, h1, by omega, rfl, h3, h4, h5, h7, h8, h9⟩

theorem decompress_spec (input : List Byte) (size : Nat) : decompress input size ≠ .fault ∧ ∀ out, decompress input size = .ok out ↔ Stream input out ∧ out.length = size := by
  by_cases hs : input.length < 2
  · rw [decompress_short size hs]
    refine ⟨fun h => (by cases h), fun out => ⟨fun h => (by cases h), ?_⟩⟩
    rintro ⟨h, _⟩
    obtain ⟨cmf, flg, rest, rfl, _⟩ := stream_iff.1 h
    simp only [List.length_cons] at hs
    omega
  · match input, hs with
    | [], h => exact absurd (by simp) h
    | [_], h => exact absurd (by simp) h
    | cmf :: flg :: rest, _ =>
      rcases decompress_eq cmf flg rest size with ⟨hn, e, he⟩ | ⟨hst, he⟩
      · rw [he]
        refine ⟨fun h => (by cases h), fun out => ⟨fun h => (by cases h), ?_⟩⟩
        rintro ⟨h, _⟩
        obtain ⟨cmf', flg', rest', h1, h2, _⟩ := stream_iff.1 h
        simp only [List.cons.injEq] at h1
        obtain ⟨rfl, rfl, rfl⟩ := h1
        exact absurd h2 hn
      · rw [he]
        obtain ⟨ha, hv⟩ := start_reader cmf flg rest
        have hx := decodeBlocks_exact (size := size) (w := 2 ^ (cmf.toNat / 16 + 8)) (8 * (cmf :: flg :: rest).length + 8) []
          ⟨cmf :: flg :: rest, 2, 0, 0⟩ ha.inv (view_lt ha.inv) (by simp)
        rw [hv] at hx
        have key : ∀ out, Stream (cmf :: flg :: rest) out ↔ ∃ b', Blocks (2 ^ (cmf.toNat / 16 + 8)) [] (bitsOf rest) out b' ∧
            ∃ a b c d : Byte, nextByte b' = bitsOf [a, b, c, d] ∧ a.toNat * 2 ^ 24 + b.toNat * 2 ^ 16 + c.toNat * 2 ^ 8 + d.toNat = Spec.adler32 out := by
          intro out
          rw [stream_iff]
          constructor
          · rintro ⟨cmf', flg', rest', h1, _, h2⟩
            simp only [List.cons.injEq] at h1
            obtain ⟨rfl, rfl, rfl⟩ := h1
            exact h2
          · intro h
            exact ⟨cmf, flg, rest, rfl, hst, h⟩
        revert hx
        generalize decodeBlocks size _ _ [] _ = y
        intro hx
        cases y with
        | fault => exact hx.elim
        | err e =>
          refine ⟨fun h => (by cases h), fun out => ⟨fun h => (by cases h), ?_⟩⟩
          rintro ⟨h, hl⟩
          obtain ⟨b', hb, _⟩ := (key out).1 h
          exact absurd ⟨hb, by omega⟩ (hx out b')
        | ok p =>
          obtain ⟨o, r⟩ := p
          obtain ⟨hi, hp⟩ := hx
          obtain ⟨f1, f2⟩ := finish_spec (size := size) (out := o) hi
          refine ⟨f1, fun out => ?_⟩
          show finish size o r = .ok out ↔ _
          rw [f2, key]
          constructor
          · rintro ⟨rfl, h1, h2⟩
            exact ⟨⟨_, ((hp out (view r)).2 ⟨rfl, rfl⟩).1, h2⟩, h1⟩
          · rintro ⟨⟨b', h1, h2⟩, h3⟩
            obtain ⟨rfl, rfl⟩ := (hp _ _).1 ⟨h1, by omega⟩
            exact ⟨rfl, h3, h2⟩

/-- Blocks say one thing. -/
theorem blocks_unique {w : Nat} (rest : List Byte) {o1 o2 : List Byte} {b1 b2 : List Bool} (h1 : Blocks w [] (bitsOf rest) o1 b1)
    (h2 : Blocks w [] (bitsOf rest) o2 b2) : o1 = o2 ∧ b1 = b2 := by
  obtain ⟨ha, hv⟩ := start_reader 0 0 rest
  have hx := decodeBlocks_exact (size := o1.length + o2.length) (w := w) (8 * (0 :: 0 :: rest).length + 8) []
    ⟨0 :: 0 :: rest, 2, 0, 0⟩ ha.inv (view_lt ha.inv) (by simp)
  rw [hv] at hx
  revert hx
  generalize decodeBlocks _ _ _ [] _ = y
  intro hx
  cases y with
  | fault => exact hx.elim
  | err e => exact absurd ⟨h1, by omega⟩ (hx o1 b1)
  | ok p =>
    obtain ⟨o, r⟩ := p
    obtain ⟨_, hp⟩ := hx
    obtain ⟨e1, e2⟩ := (hp _ _).1 ⟨h1, by omega⟩
    obtain ⟨e3, e4⟩ := (hp _ _).1 ⟨h2, by omega⟩
    exact ⟨e1.trans e3.symm, e2.trans e4.symm⟩

end Nature.Inflate
