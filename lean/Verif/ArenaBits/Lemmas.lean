import Verif.ArenaBits.Spec
import Verif.Bitmap.Lemmas
namespace Nature.ArenaBits
open Nature.Bitmap (Bytes)

theorem and_not_three (c : BitVec 64) : c &&& ~~~ 3#64 = (c >>> 2) <<< 2 := by
  apply BitVec.eq_of_getLsbD_eq
  intro i hi
  have h3 : (3#64).getLsbD i = decide (i < 2) := by
    match i with
    | 0 => rfl
    | 1 => rfl
    | i + 2 =>
      simp only [BitVec.getLsbD_ofNat]
      have : Nat.testBit 3 (i + 2) = false := by
        apply Nat.testBit_lt_two_pow
        have : 2 ^ 2 ≤ 2 ^ (i + 2) := Nat.pow_le_pow_right (by omega) (by omega)
        omega
      simp [this]
  simp only [BitVec.getLsbD_and, BitVec.getLsbD_not, BitVec.getLsbD_shiftLeft, BitVec.getLsbD_ushiftRight, h3, hi]
  by_cases h : i < 2
  · simp [h]
  · have : 2 + (i - 2) = i := by omega
    simp [h, this]

theorem bitsIndex_eq {base addr : Nat} (h : addr - base < 2 ^ 60) :
    bitsIndex base addr = (addr - base) / 8 / 4 * 8 + (addr - base) / 8 % 4 := by
  unfold bitsIndex
  simp only [and_not_three]
  generalize hn : addr - base = n at *
  have hc : (BitVec.ofNat 64 n >>> 3).toNat = n / 8 := by
    rw [BitVec.toNat_ushiftRight, BitVec.toNat_ofNat, Nat.mod_eq_of_lt (by omega), Nat.shiftRight_eq_div_pow]
  generalize hcc : BitVec.ofNat 64 n >>> 3 = c at *
  have h3 : (c &&& 3#64).toNat = c.toNat % 4 := by
    rw [BitVec.toNat_and]
    exact Nat.and_two_pow_sub_one_eq_mod c.toNat 2
  rw [BitVec.toNat_add, h3, BitVec.toNat_shiftLeft, BitVec.toNat_shiftLeft, BitVec.toNat_ushiftRight, hc,
    Nat.shiftRight_eq_div_pow, Nat.shiftLeft_eq, Nat.shiftLeft_eq]
  omega

/-- Position of a word's bit, in closed form. -/
def pos (c : Nat) : Nat := c / 4 * 8 + c % 4

theorem pos_lt {a b : Nat} : pos a < pos b ↔ a < b := by unfold pos; omega
theorem pos_inj {a b : Nat} : pos a = pos b ↔ a = b := by unfold pos; omega

theorem arenaBase_le {h : Heap} {a : Nat} (ha : h.off ≤ a) :
    arenaBase h (arenaIndex h a) ≤ a ∧ a < arenaBase h (arenaIndex h a) + arenaSize := by
  simp only [arenaBase, arenaIndex, arenaSize]; omega

theorem arenaIndex_eq {h : Heap} {a i : Nat} (h1 : arenaBase h i ≤ a) (h2 : a < arenaBase h i + arenaSize) :
    arenaIndex h a = i := by
  simp only [arenaBase, arenaIndex, arenaSize] at *; omega

theorem put_off (h : Heap) (i : Nat) (b : Bytes) : (h.put i b).off = h.off := rfl
theorem put_index (h : Heap) (i : Nat) (b : Bytes) (a : Nat) : arenaIndex (h.put i b) a = arenaIndex h a := rfl
theorem put_base (h : Heap) (i : Nat) (b : Bytes) (j : Nat) : arenaBase (h.put i b) j = arenaBase h j := rfl
theorem put_arenas (h : Heap) (i : Nat) (b : Bytes) (j : Nat) :
    (h.put i b).arenas j = if j = i then some b else h.arenas j := rfl

theorem readKind_eq {h : Heap} {a : Nat} {b : Bytes} (hoff : h.off ≤ a)
    (hb : h.arenas (arenaIndex h a) = some b) :
    readKind h a = Bitmap.bit b (pos ((a - arenaBase h (arenaIndex h a)) / 8)) := by
  have := arenaBase_le hoff
  rw [readKind, hb]
  simp only [Bitmap.test_spec]
  rw [bitsIndex_eq (by simp only [arenaSize] at this; omega)]
  rfl

/-- Replacing one arena's bits: what every word of the heap now records. -/
theorem readKind_put {h : Heap} {i : Nat} {b : Bytes} {w : Nat} (hoff : h.off ≤ w) :
    readKind (h.put i b) w =
      if arenaIndex h w = i then Bitmap.bit b (pos ((w - arenaBase h i) / 8)) else readKind h w := by
  by_cases hi : arenaIndex h w = i
  · rw [if_pos hi, readKind_eq (h := h.put i b) hoff (b := b) (by rw [put_index, put_arenas, if_pos hi])]
    rw [put_index, put_base, hi]
  · rw [if_neg hi]
    simp only [readKind, put_index, put_base, put_arenas, if_neg hi]

theorem mapped_put {h : Heap} {i lo hi : Nat} {b : Bytes} (hl : b.length = arenaBitsCount)
    (hm : Mapped h lo hi) : Mapped (h.put i b) lo hi := by
  refine ⟨hm.1, hm.2.1, fun a h1 h2 => ?_⟩
  obtain ⟨b0, hb0, hl0⟩ := hm.2.2 a h1 h2
  rw [put_index, put_arenas]
  by_cases hi : arenaIndex h a = i
  · rw [if_pos hi]; exact ⟨b, rfl, hl⟩
  · rw [if_neg hi]; exact ⟨b0, hb0, hl0⟩

theorem mapped_mono {h : Heap} {lo hi lo' hi' : Nat} (hm : Mapped h lo hi) (h1 : lo ≤ lo') (h2 : hi' ≤ hi) :
    Mapped h lo' hi' :=
  ⟨by have := hm.1; omega, hm.2.1, fun a h3 h4 => hm.2.2 a (by omega) (by omega)⟩

theorem batch_bits {b : Bytes} {i n : Nat} {c : Bool} (hle : i + n ≤ 8 * b.length) :
    ∃ b', (if c then Bitmap.batchClear b i n else Bitmap.batchSet b i n) = some b' ∧ b'.length = b.length ∧
      ∀ j, j < 8 * b.length → Bitmap.bit b' j = if i ≤ j ∧ j < i + n then some (!c) else Bitmap.bit b j := by
  have aux : ∀ j, j < 8 * b.length → ∀ v : Bool, (Bitmap.bit b j).map (fun _ => v) = some v := by
    intro j hj v
    have := Bitmap.bit_isSome b j
    cases hb : Bitmap.bit b j with
    | none => rw [hb] at this; simp at this; omega
    | some _ => rfl
  cases c with
  | true =>
    obtain ⟨b', h1, h2, h3⟩ := Bitmap.batchClear_spec hle
    refine ⟨b', by simpa using h1, h2, fun j hj => ?_⟩
    rw [h3, aux j hj]; rfl
  | false =>
    obtain ⟨b', h1, h2, h3⟩ := Bitmap.batchSet_spec hle
    refine ⟨b', by simpa using h1, h2, fun j hj => ?_⟩
    rw [h3, aux j hj]; rfl

theorem batchHandle_spec (c : Bool) (n : Nat) : ∀ (h : Heap) (lo hi : Nat), hi - lo ≤ n →
    Mapped h lo hi → lo % 8 = 0 → hi % 8 = 0 →
    ∃ h', batchHandle h lo hi c = some h' ∧ h'.off = h.off ∧ (∀ l u, Mapped h l u → Mapped h' l u) ∧
      Recorded h h' lo hi (fun _ => !c) := by
  induction n with
  | zero =>
    intro h lo hi hn _ _ _
    refine ⟨h, ?_, rfl, fun _ _ x => x, fun w _ _ => ?_⟩
    · rw [batchHandle, dif_neg (by omega)]
    · rw [if_neg (by omega)]
  | succ n ih =>
    intro h lo hi hn hm hlo hhi
    by_cases hlt : lo < hi
    · obtain ⟨b, hb, hl⟩ := hm.2.2 lo (Nat.le_refl _) hlt
      have hbase := arenaBase_le hm.1
      generalize hai : arenaIndex h lo = i at *
      have hb8 : arenaBase h i % 8 = 0 := by
        have := hm.2.1; simp only [arenaBase, arenaSize]; omega
      generalize hte : (if arenaBase h i + arenaSize < hi then arenaBase h i + arenaSize else hi) = te
      have hte1 : lo < te ∧ te ≤ hi ∧ te ≤ arenaBase h i + arenaSize ∧ te % 8 = 0 := by
        simp only [arenaSize] at hte hbase ⊢
        rw [← hte]; split <;> omega
      have hte2 : te = hi ∨ te = arenaBase h i + arenaSize := by
        rw [← hte]; split
        · exact Or.inr rfl
        · exact Or.inl rfl
      have e0 : bitsIndex (arenaBase h i) lo = pos ((lo - arenaBase h i) / 8) :=
        bitsIndex_eq (by simp only [arenaSize] at hbase; omega)
      have e1 : bitsIndex (arenaBase h i) te = pos ((te - arenaBase h i) / 8) :=
        bitsIndex_eq (by simp only [arenaSize] at hte1; omega)
      have hle : pos ((lo - arenaBase h i) / 8) ≤ pos ((te - arenaBase h i) / 8) := by
        have := @pos_lt ((lo - arenaBase h i) / 8) ((te - arenaBase h i) / 8)
        have : (lo - arenaBase h i) / 8 < (te - arenaBase h i) / 8 := by omega
        have := pos_lt.mpr this
        omega
      have hcap : pos ((te - arenaBase h i) / 8) ≤ 8 * b.length := by
        rw [hl]; simp only [pos, arenaBitsCount, arenaSize] at *; omega
      obtain ⟨b', hb', hl', hbit⟩ := batch_bits (b := b) (i := pos ((lo - arenaBase h i) / 8))
        (n := pos ((te - arenaBase h i) / 8) - pos ((lo - arenaBase h i) / 8)) (c := c) (by omega)
      have hlen : b'.length = arenaBitsCount := by rw [hl', hl]
      obtain ⟨h', e, ho, hmm, hr⟩ := ih (h.put i b') te hi (by omega)
        (mapped_put hlen (mapped_mono hm (by omega) (by omega))) hte1.2.2.2 hhi
      refine ⟨h', ?_, by rw [ho, put_off], fun l u hlu => hmm l u (mapped_put hlen hlu), fun w hw hw8 => ?_⟩
      · rw [batchHandle, dif_pos hlt]
        simp only [hai, hb, hte, e0, e1, hb', e]
      · rw [hr w hw hw8, readKind_put hw]
        by_cases h1 : te ≤ w ∧ w < hi
        · rw [if_pos h1, if_pos (by omega)]
        · rw [if_neg h1]
          by_cases h2 : arenaIndex h w = i
          · rw [if_pos h2]
            have hbw := arenaBase_le hw
            rw [h2] at hbw
            have hc : pos ((w - arenaBase h i) / 8) < 8 * b.length := by
              rw [hl]; simp only [pos, arenaBitsCount, arenaSize] at *; omega
            rw [hbit _ hc]
            have hb2 : h.arenas (arenaIndex h w) = some b := by rw [h2]; exact hb
            have hrk := readKind_eq hw hb2
            rw [h2] at hrk
            rw [hrk]
            have p1 := @pos_lt ((w - arenaBase h i) / 8) ((lo - arenaBase h i) / 8)
            have p2 := @pos_lt ((w - arenaBase h i) / 8) ((te - arenaBase h i) / 8)
            by_cases h3 : lo ≤ w ∧ w < te
            · rw [if_pos (by omega), if_pos (by omega)]
            · rw [if_neg, if_neg]
              · omega
              · intro hh
                have q1 : ¬ (w - arenaBase h i) / 8 < (lo - arenaBase h i) / 8 := by
                  intro hx; have := p1.mpr hx; omega
                have q2 : (w - arenaBase h i) / 8 < (te - arenaBase h i) / 8 := p2.mp (by omega)
                omega
          · rw [if_neg h2, if_neg]
            intro hh
            apply h2
            exact arenaIndex_eq (by omega) (by omega)
    · refine ⟨h, ?_, rfl, fun _ _ x => x, fun w _ _ => ?_⟩
      · rw [batchHandle, dif_neg hlt]
      · rw [if_neg (by omega)]

theorem one_bit {b : Bytes} {i : Nat} {v : Bool} (h : i < 8 * b.length) :
    ∃ b', (if v then Bitmap.set b i else Bitmap.clear b i) = some b' ∧ b'.length = b.length ∧
      ∀ j, Bitmap.bit b' j = if j = i then some v else Bitmap.bit b j := by
  cases v with
  | true => simpa using Bitmap.set_spec h
  | false => simpa using Bitmap.clear_spec h

theorem setWords_spec (g : Bytes) (n : Nat) : ∀ (h : Heap) (lo hi k : Nat), hi - lo ≤ n →
    Mapped h lo hi → lo % 8 = 0 → hi % 8 = 0 → k + (hi - lo) / 8 ≤ 8 * g.length →
    ∃ h', setWords h g lo hi k = some h' ∧ h'.off = h.off ∧ (∀ l u, Mapped h l u → Mapped h' l u) ∧
      ∀ w, h.off ≤ w → w % 8 = 0 →
        readKind h' w = if lo ≤ w ∧ w < hi then Bitmap.bit g (k + (w - lo) / 8) else readKind h w := by
  induction n with
  | zero =>
    intro h lo hi k hn _ _ _ _
    refine ⟨h, ?_, rfl, fun _ _ x => x, fun w _ _ => ?_⟩
    · rw [setWords, if_neg (by omega)]
    · rw [if_neg (by omega)]
  | succ n ih =>
    intro h lo hi k hn hm hlo hhi hg
    by_cases hlt : lo < hi
    · obtain ⟨b, hb, hl⟩ := hm.2.2 lo (Nat.le_refl _) hlt
      have hbase := arenaBase_le hm.1
      generalize hai : arenaIndex h lo = i at *
      have hb8 : arenaBase h i % 8 = 0 := by
        have := hm.2.1; simp only [arenaBase, arenaSize]; omega
      have e0 : bitsIndex (arenaBase h i) lo = pos ((lo - arenaBase h i) / 8) :=
        bitsIndex_eq (by simp only [arenaSize] at hbase; omega)
      have hcap : pos ((lo - arenaBase h i) / 8) < 8 * b.length := by
        rw [hl]; simp only [pos, arenaBitsCount, arenaSize] at *; omega
      have hsome := Bitmap.bit_isSome g k
      have hk : k < 8 * g.length := by omega
      cases hv : Bitmap.bit g k with
      | none => rw [hv] at hsome; simp at hsome; omega
      | some v =>
        obtain ⟨b', hb', hl', hbit⟩ := one_bit (b := b) (i := pos ((lo - arenaBase h i) / 8)) (v := v) hcap
        have hlen : b'.length = arenaBitsCount := by rw [hl', hl]
        obtain ⟨h', e, ho, hmm, hr⟩ := ih (h.put i b') (lo + 8) hi (k + 1) (by omega)
          (mapped_put hlen (mapped_mono hm (by omega) (by omega))) (by omega) hhi (by omega)
        refine ⟨h', ?_, by rw [ho, put_off], fun l u hlu => hmm l u (mapped_put hlen hlu), fun w hw hw8 => ?_⟩
        · rw [setWords, if_pos hlt]
          simp only [hai, hb, e0, Bitmap.test_spec, hv, hb', e]
        · rw [hr w hw hw8, readKind_put hw]
          by_cases h1 : lo + 8 ≤ w ∧ w < hi
          · rw [if_pos h1, if_pos (by omega)]
            congr 1; omega
          · rw [if_neg h1]
            by_cases h2 : arenaIndex h w = i
            · rw [if_pos h2]
              have hbw := arenaBase_le hw
              rw [h2] at hbw
              rw [hbit]
              have hb2 : h.arenas (arenaIndex h w) = some b := by rw [h2]; exact hb
              have hrk := readKind_eq hw hb2
              rw [h2] at hrk
              rw [hrk]
              have p1 := @pos_inj ((w - arenaBase h i) / 8) ((lo - arenaBase h i) / 8)
              by_cases h3 : w = lo
              · subst h3
                rw [if_pos rfl, if_pos (by omega), ← hv]
                congr 1; omega
              · rw [if_neg, if_neg]
                · omega
                · intro hh; have := p1.mp hh; omega
            · rw [if_neg h2, if_neg]
              intro hh
              apply h2
              have : w = lo := by omega
              rw [this]; exact hai
    · refine ⟨h, ?_, rfl, fun _ _ x => x, fun w _ _ => ?_⟩
      · rw [setWords, if_neg hlt]
      · rw [if_neg (by omega)]

/-- A range starts at the word its first byte lies in. -/
theorem batchHandle_floor {h : Heap} {lo hi : Nat} (c : Bool) (hlt : lo < hi) (hoff : h.off ≤ lo) (h8 : h.off % 8 = 0) :
    batchHandle h lo hi c = batchHandle h (lo / 8 * 8) hi c := by
  have hoff' : h.off ≤ lo / 8 * 8 := by omega
  have hb := arenaBase_le hoff
  have hi' : arenaIndex h (lo / 8 * 8) = arenaIndex h lo := by
    simp only [arenaIndex, arenaSize]; omega
  have hb' := arenaBase_le hoff'
  rw [hi'] at hb'
  have hbase : arenaBase h (arenaIndex h lo) % 8 = 0 := by simp only [arenaBase, arenaSize]; omega
  have hidx : bitsIndex (arenaBase h (arenaIndex h lo)) (lo / 8 * 8) = bitsIndex (arenaBase h (arenaIndex h lo)) lo := by
    rw [bitsIndex_eq (by simp only [arenaSize] at *; omega), bitsIndex_eq (by simp only [arenaSize] at *; omega)]
    have : (lo / 8 * 8 - arenaBase h (arenaIndex h lo)) / 8 = (lo - arenaBase h (arenaIndex h lo)) / 8 := by omega
    rw [this]
  rw [batchHandle, batchHandle, dif_pos hlt, dif_pos (by omega), hi', hidx]

/-- The words below a bound are those below the bound rounded up. -/
theorem setWords_ceil (g : Bytes) (n : Nat) : ∀ (h : Heap) (temp stop k : Nat), stop - temp ≤ n → temp % 8 = 0 →
    setWords h g temp stop k = setWords h g temp ((stop + 7) / 8 * 8) k := by
  induction n with
  | zero =>
    intro h temp stop k hn h8
    rw [setWords, setWords, if_neg (by omega), if_neg (by omega)]
  | succ n ih =>
    intro h temp stop k hn h8
    by_cases hlt : temp < stop
    · rw [setWords, setWords.eq_def h g temp ((stop + 7) / 8 * 8), if_pos hlt, if_pos (by omega)]
      cases h.arenas (arenaIndex h temp) with
      | none => rfl
      | some bits =>
        dsimp only
        cases Bitmap.test g k with
        | none => rfl
        | some v =>
          dsimp only
          cases (if v then Bitmap.set bits (bitsIndex (arenaBase h (arenaIndex h temp)) temp)
            else Bitmap.clear bits (bitsIndex (arenaBase h (arenaIndex h temp)) temp)) with
          | none => rfl
          | some b' => exact ih _ _ _ _ (by omega) (by omega)
    · rw [setWords, setWords, if_neg hlt, if_neg (by omega)]

end Nature.ArenaBits
