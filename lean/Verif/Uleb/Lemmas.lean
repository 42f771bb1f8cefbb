import Verif.Uleb.Spec
/-! Lemmas for C39. -/
namespace Nature.Uleb
open Nature

theorem low7 (b : Byte) : (b &&& 0x7f#8).toNat = b.toNat % 128 := by
  rw [BitVec.toNat_and]
  exact Nat.and_two_pow_sub_one_eq_mod b.toNat 7

theorem top_clear (b : Byte) : b &&& 0x80#8 = 0#8 ↔ b.toNat < 128 := by
  revert b; decide +kernel

theorem low7_gt (b : Byte) : (b &&& 0x7f#8) > 1#8 ↔ 1 < b.toNat % 128 := by
  rw [gt_iff_lt, BitVec.lt_def, low7]; rfl

theorem magnitude_eq (a : U64) (h : ¬ 0 ≤ a.toInt) : ((magnitude a).toNat : Int) = - a.toInt := by
  unfold magnitude
  rw [BitVec.toInt_eq_toNat_cond] at *
  simp only [BitVec.toNat_add, BitVec.toNat_neg, BitVec.toNat_ofNat]
  have := a.isLt
  split at h <;> rename_i h2
  · omega
  · omega

theorem umax_sub (a : U64) : (umax - a).toNat = 2 ^ 64 - 1 - a.toNat := by
  have h := a.isLt
  have e : umax.toNat = 18446744073709551615 := by rfl
  rw [BitVec.toNat_sub, e]
  omega

theorem toInt_nonneg (a : U64) (h : 0 ≤ a.toInt) : a.toInt = a.toNat := by
  rw [BitVec.toInt_eq_toNat_cond] at *
  have := a.isLt
  split at h <;> rename_i h2
  · rw [if_pos h2]
  · omega

theorem addSigned_fits (v a : U64) (h : Fits (v.toNat + a.toInt)) :
    ∃ r, addSigned v a = some r ∧ (r.toNat : Int) = v.toNat + a.toInt := by
  obtain ⟨h1, h2⟩ := h
  have hv := v.isLt
  unfold addSigned
  by_cases h0 : 0 ≤ a.toInt
  · have e := toInt_nonneg a h0
    rw [if_pos h0, if_neg (by rw [gt_iff_lt, BitVec.lt_def, umax_sub]; omega)]
    exact ⟨_, rfl, by rw [BitVec.toNat_add]; omega⟩
  · have e := magnitude_eq a h0
    rw [if_neg h0, if_neg (by rw [gt_iff_lt, BitVec.lt_def]; omega)]
    exact ⟨_, rfl, by rw [BitVec.toNat_sub]; omega⟩

theorem addSigned_none (v a : U64) (h : ¬ Fits (v.toNat + a.toInt)) : addSigned v a = none := by
  have hv := v.isLt
  unfold addSigned Fits at *
  by_cases h0 : 0 ≤ a.toInt
  · have e := toInt_nonneg a h0
    have := a.isLt
    rw [if_pos h0, if_pos (by rw [gt_iff_lt, BitVec.lt_def, umax_sub]; omega)]
  · have e := magnitude_eq a h0
    rw [if_neg h0, if_pos (by rw [gt_iff_lt, BitVec.lt_def]; omega)]

theorem subSigned_fits (v a : U64) (h : Fits (v.toNat - a.toInt)) :
    ∃ r, subSigned v a = some r ∧ (r.toNat : Int) = v.toNat - a.toInt := by
  obtain ⟨h1, h2⟩ := h
  have hv := v.isLt
  unfold subSigned
  by_cases h0 : 0 ≤ a.toInt
  · have e := toInt_nonneg a h0
    rw [if_pos h0, if_neg (by rw [gt_iff_lt, BitVec.lt_def]; omega)]
    exact ⟨_, rfl, by rw [BitVec.toNat_sub]; omega⟩
  · have e := magnitude_eq a h0
    have := (magnitude a).isLt
    rw [if_neg h0, if_neg (by rw [gt_iff_lt, BitVec.lt_def, umax_sub]; omega)]
    exact ⟨_, rfl, by rw [BitVec.toNat_add]; omega⟩

theorem subSigned_none (v a : U64) (h : ¬ Fits (v.toNat - a.toInt)) : subSigned v a = none := by
  have hv := v.isLt
  unfold subSigned Fits at *
  by_cases h0 : 0 ≤ a.toInt
  · have e := toInt_nonneg a h0
    rw [if_pos h0, if_pos (by rw [gt_iff_lt, BitVec.lt_def]; omega)]
  · have e := magnitude_eq a h0
    have := (magnitude a).isLt
    rw [if_neg h0, if_pos (by rw [gt_iff_lt, BitVec.lt_def, umax_sub]; omega)]

/-! ### Values of byte strings -/

theorem ulebVal_append (a b : List Byte) : ulebVal (a ++ b) = ulebVal a + 2 ^ (7 * a.length) * ulebVal b := by
  induction a with
  | nil => simp [ulebVal]
  | cons x t ih =>
    simp only [List.cons_append, ulebVal, List.length_cons, ih]
    rw [Nat.mul_add 7, Nat.pow_add, Nat.mul_one]
    generalize 2 ^ (7 * t.length) = p
    have : p * 2 ^ 7 * ulebVal b = 128 * (p * ulebVal b) := by
      rw [Nat.mul_comm p, Nat.mul_assoc]
    rw [this, Nat.mul_add]
    omega

theorem ulebVal_lt (a : List Byte) : ulebVal a < 2 ^ (7 * a.length) := by
  induction a with
  | nil => simp [ulebVal]
  | cons x t ih =>
    simp only [ulebVal, List.length_cons]
    rw [Nat.mul_add 7, Nat.pow_add, Nat.mul_one]
    generalize 2 ^ (7 * t.length) = p at *
    have := Nat.mod_lt x.toNat (show 0 < 128 by omega)
    omega

/-! ### groups -/

theorem groups_length (k : Nat) (v : U64) : (groups k v).length = k := by
  induction k generalizing v with
  | zero => rfl
  | succ k ih => simp [groups, ih]

theorem group_byte (v : U64) : ((v &&& 0x7f#64).setWidth 8).toNat = v.toNat % 128 := by
  rw [BitVec.toNat_setWidth, BitVec.toNat_and]
  have : v.toNat &&& (0x7f#64).toNat = v.toNat % 128 := Nat.and_two_pow_sub_one_eq_mod v.toNat 7
  rw [this]; omega

theorem or80 (b : Byte) (h : b.toNat < 128) : (b ||| 0x80#8).toNat = b.toNat + 128 := by
  revert b; decide +kernel

theorem groups_val (k : Nat) (v : U64) : ulebVal (groups k v) = v.toNat % 2 ^ (7 * k) := by
  induction k generalizing v with
  | zero => simp [groups, ulebVal, Nat.mod_one]
  | succ k ih =>
    simp only [groups, ulebVal, ih]
    have e : (if k ≠ 0 then (v &&& 0x7f#64).setWidth 8 ||| 0x80#8 else (v &&& 0x7f#64).setWidth 8).toNat % 128
        = v.toNat % 128 := by
      have hb := group_byte v
      split
      · rw [or80 _ (by omega)]; omega
      · omega
    rw [e, BitVec.toNat_ushiftRight, Nat.shiftRight_eq_div_pow, Nat.mul_add 7, Nat.mul_one, Nat.add_comm (7 * k) 7,
      Nat.pow_add 2 7, Nat.mod_mul]

theorem groups_field (k : Nat) (v : U64) (hk : 0 < k) : IsField (groups k v) := by
  induction k generalizing v with
  | zero => omega
  | succ k ih =>
    have hb := group_byte v
    by_cases h0 : k = 0
    · subst h0
      exact ⟨[], (v &&& 0x7f#64).setWidth 8, by simp [groups], by simp, by rw [hb]; omega⟩
    · obtain ⟨init, last, e, h1, h2⟩ := ih (v >>> 7) (by omega)
      refine ⟨((v &&& 0x7f#64).setWidth 8 ||| 0x80#8) :: init, last, by simp [groups, h0, e], ?_, h2⟩
      intro b hbm
      rcases List.mem_cons.1 hbm with h | h
      · subst h; rw [or80 _ (by omega)]; omega
      · exact h1 b h

/-! ### read -/

theorem or_add (v : U64) (x : Byte) (k : Nat) (hk : k ≤ 63) (hv : v.toNat < 2 ^ k) :
    (v ||| x.setWidth 64 <<< k).toNat = (v.toNat + 2 ^ k * x.toNat) % 2 ^ 64 := by
  have e : x.setWidth 64 <<< k = BitVec.ofNat 64 (2 ^ k * x.toNat) := by
    apply BitVec.eq_of_toNat_eq
    rw [BitVec.toNat_shiftLeft, BitVec.toNat_setWidth, BitVec.toNat_ofNat, Nat.shiftLeft_eq, Nat.mul_comm,
      Nat.mod_eq_of_lt (a := x.toNat) (by have := x.isLt; omega)]
  rw [e, BitVec.toNat_or, BitVec.toNat_ofNat]
  have h64 : (2 : Nat) ^ 64 = 2 ^ k * 2 ^ (64 - k) := by rw [← Nat.pow_add]; congr 1; omega
  rw [h64, Nat.mul_mod_mul_left, Nat.or_comm, ← Nat.two_pow_add_eq_or_of_lt hv, Nat.mod_mul,
    Nat.add_mul_mod_self_left, Nat.mod_eq_of_lt hv, Nat.add_mul_div_left _ _ (Nat.two_pow_pos k),
    Nat.div_eq_of_lt hv, Nat.zero_add, Nat.add_comm]

theorem take_drop_cons {l : List Byte} {i k : Nat} {b : Byte} (h : l[i]? = some b) :
    (l.drop i).take (k + 1) = b :: (l.drop (i + 1)).take k := by
  obtain ⟨hi, e⟩ := List.getElem?_eq_some_iff.1 h
  rw [List.drop_eq_getElem_cons hi, e, List.take_succ_cons]

theorem readLoop_spec (place : List Byte) (k i : Nat) (v : U64) (h1 : i + k ≤ 10) (h2 : i + k ≤ place.length)
    (hv : v.toNat < 2 ^ (7 * i)) :
    ∃ r, readLoop place k i v = .ok r ∧
      r.toNat = (v.toNat + 2 ^ (7 * i) * ulebVal ((place.drop i).take k)) % 2 ^ 64 := by
  induction k generalizing i v with
  | zero =>
    refine ⟨v, rfl, ?_⟩
    simp only [List.take_zero, ulebVal, Nat.mul_zero, Nat.add_zero]
    rw [Nat.mod_eq_of_lt v.isLt]
  | succ k ih =>
    have hi : i < place.length := by omega
    have hg : place[i]? = some place[i] := List.getElem?_eq_getElem hi
    generalize place[i] = b at hg
    rw [readLoop]
    simp only [hg]
    rw [if_pos (by omega), Nat.mul_comm i 7]
    have e := or_add v (b &&& 0x7f#8) (7 * i) (by omega) hv
    rw [low7] at e
    generalize hv' : v ||| (b &&& 0x7f#8).setWidth 64 <<< (7 * i) = v' at *
    have hm := Nat.mod_lt b.toNat (show 0 < 128 by omega)
    have hp : 2 ^ (7 * (i + 1)) = 128 * 2 ^ (7 * i) := by
      rw [Nat.mul_add 7, Nat.pow_add, Nat.mul_comm]
    have hlt : v'.toNat < 2 ^ (7 * (i + 1)) := by
      rw [e, hp]
      refine Nat.lt_of_le_of_lt (Nat.mod_le _ _) ?_
      generalize 2 ^ (7 * i) = p at *
      have : p * (b.toNat % 128) ≤ p * 127 := Nat.mul_le_mul_left _ (by omega)
      omega
    obtain ⟨r, hr, er⟩ := ih (i + 1) v' (by omega) (by omega) hlt
    refine ⟨r, hr, ?_⟩
    rw [er, e, take_drop_cons hg, ulebVal, hp, Nat.mod_add_mod]
    congr 1
    rw [Nat.mul_add, Nat.add_assoc, ← Nat.mul_assoc (2 ^ (7 * i)), Nat.mul_comm (2 ^ (7 * i)) 128]

theorem read_spec (place : List Byte) (w : Nat) (h1 : w ≤ 10) (h2 : w ≤ place.length) :
    ∃ r, read place w = .ok r ∧ r.toNat = ulebVal (place.take w) % 2 ^ 64 := by
  obtain ⟨r, hr, e⟩ := readLoop_spec place w 0 0#64 (by omega) (by omega) (by simp)
  refine ⟨r, hr, ?_⟩
  simpa using e

/-! ### fieldSize -/

/-- Fields by index. -/
def Idx (place : List Byte) (w : Nat) : Prop :=
  0 < w ∧ w ≤ place.length ∧ (∀ (j : Nat) b, j + 1 < w → place[j]? = some b → 128 ≤ b.toNat) ∧
  (∀ b, place[w - 1]? = some b → b.toNat < 128)

theorem idx_iff (place : List Byte) (w : Nat) (hw : w ≤ place.length) : IsField (place.take w) ↔ Idx place w := by
  constructor
  · intro ⟨init, last, e, h1, h2⟩
    have hl : w = init.length + 1 := by
      have := congrArg List.length e
      simp at this; omega
    have hg : ∀ (j : Nat), j < w → place[j]? = (init ++ [last])[j]? := by
      intro j hj
      rw [← e, List.getElem?_take_of_lt hj]
    refine ⟨by omega, hw, ?_, ?_⟩
    · intro j b hj hb
      rw [hg j (by omega), List.getElem?_append_left (by omega)] at hb
      exact h1 b (List.mem_of_getElem? hb)
    · intro b hb
      rw [hg _ (by omega), List.getElem?_append_right (by omega)] at hb
      simp [hl] at hb
      subst hb; exact h2
  · intro ⟨h0, _, h1, h2⟩
    refine ⟨place.take (w - 1), place[w - 1]'(by omega), ?_, ?_, h2 _ (List.getElem?_eq_getElem (by omega))⟩
    · rw [List.take_append_getElem]; congr 1; omega
    · intro b hb
      obtain ⟨j, hj, e⟩ := List.mem_iff_getElem.1 hb
      simp only [List.length_take] at hj
      rw [List.getElem_take] at e
      exact h1 j b (by omega) (by rw [List.getElem?_eq_getElem (by omega), e])

theorem idx_unique {place : List Byte} {w w' : Nat} (h : Idx place w) (h' : Idx place w') : w = w' := by
  obtain ⟨a0, a1, a2, a3⟩ := h
  obtain ⟨b0, b1, b2, b3⟩ := h'
  rcases Nat.lt_trichotomy w w' with hlt | he | hgt
  · have hg : place[w - 1]? = some (place[w - 1]'(by omega)) := List.getElem?_eq_getElem (by omega)
    have := a3 _ hg
    have := b2 (w - 1) _ (by omega) hg
    omega
  · exact he
  · have hg : place[w' - 1]? = some (place[w' - 1]'(by omega)) := List.getElem?_eq_getElem (by omega)
    have := b3 _ hg
    have := a2 (w' - 1) _ (by omega) hg
    omega

theorem val_fits (place : List Byte) (w : Nat) (hw : w ≤ place.length) (h10 : w ≤ 10)
    (h : ∀ b, w = 10 → place[9]? = some b → b.toNat % 128 ≤ 1) : ulebVal (place.take w) < 2 ^ 64 := by
  by_cases hc : w = 10
  · subst hc
    have hb : place[9]? = some (place[9]'(by omega)) := List.getElem?_eq_getElem (by omega)
    have hbb := h _ rfl hb
    rw [← List.take_append_getElem (i := 9) (by omega), ulebVal_append]
    have := ulebVal_lt (place.take 9)
    simp only [List.length_take, show min 9 place.length = 9 by omega, ulebVal] at *
    omega
  · refine Nat.lt_of_lt_of_le (ulebVal_lt _) ?_
    apply Nat.pow_le_pow_right (by omega)
    simp; omega

theorem val_fits_conv (place : List Byte) (hw : 10 ≤ place.length) (b : Byte) (hb : place[9]? = some b)
    (h : 1 < b.toNat % 128) : 2 ^ 64 ≤ ulebVal (place.take 10) := by
  obtain ⟨hi, e⟩ := List.getElem?_eq_some_iff.1 hb
  rw [← List.take_append_getElem (i := 9) (by omega), ulebVal_append, e]
  simp only [List.length_take, show min 9 place.length = 9 by omega, ulebVal]
  omega

theorem fieldLoop_spec (place : List Byte) (k i : Nat) (h1 : i + k ≤ 10) (h2 : i + k ≤ place.length)
    (hp : ∀ (j : Nat) b, j < i → place[j]? = some b → 128 ≤ b.toNat) :
    (∃ w, fieldLoop place k i = .ok (some (.ok, w)) ∧ i < w ∧ w ≤ i + k ∧ Idx place w ∧ ulebVal (place.take w) < 2 ^ 64) ∨
    (fieldLoop place k i = .ok (some (.fieldOverflow, 0)) ∧ i + k = 10 ∧
      ∀ w, Idx place w → w ≤ i + k → ¬ ulebVal (place.take w) < 2 ^ 64) ∨
    (fieldLoop place k i = .ok none ∧ ∀ w, Idx place w → ¬ w ≤ i + k) := by
  induction k generalizing i with
  | zero =>
    refine Or.inr (Or.inr ⟨rfl, ?_⟩)
    intro w ⟨a0, a1, _, a3⟩ hw
    have hg : place[w - 1]? = some (place[w - 1]'(by omega)) := List.getElem?_eq_getElem (by omega)
    have := a3 _ hg
    have := hp (w - 1) _ (by omega) hg
    omega
  | succ k ih =>
    have hi : i < place.length := by omega
    have hg : place[i]? = some place[i] := List.getElem?_eq_getElem hi
    generalize place[i] = b at hg
    rw [fieldLoop]
    simp only [hg]
    by_cases h9 : i = 9 ∧ (b &&& 0x7f#8) > 1#8
    · rw [if_pos h9]
      refine Or.inr (Or.inl ⟨rfl, by omega, ?_⟩)
      intro w ⟨a0, a1, _, a3⟩ hw
      have hb := (low7_gt b).1 h9.2
      by_cases hwi : w ≤ i
      · have hg : place[w - 1]? = some (place[w - 1]'(by omega)) := List.getElem?_eq_getElem (by omega)
        have := a3 _ hg
        have := hp (w - 1) _ (by omega) hg
        omega
      · have : w = 10 := by omega
        subst this
        have := val_fits_conv place (by omega) b (by rw [← h9.1]; exact hg) hb
        omega
    · rw [if_neg h9]
      by_cases h80 : b &&& 0x80#8 = 0#8
      · rw [if_pos h80]
        have hlt := (top_clear b).1 h80
        refine Or.inl ⟨i + 1, rfl, by omega, by omega, ⟨by omega, by omega, ?_, ?_⟩, ?_⟩
        · intro j c hj hc; exact hp j c (by omega) hc
        · intro c hc
          rw [show i + 1 - 1 = i by omega, hg] at hc
          cases hc; exact hlt
        · apply val_fits _ _ (by omega) (by omega)
          intro c hc hc9
          have : i = 9 := by omega
          subst this
          rw [hg] at hc9; cases hc9
          by_cases hx : 1 < b.toNat % 128
          · exact absurd ⟨rfl, (low7_gt b).2 hx⟩ h9
          · omega
      · rw [if_neg h80]
        have hge : 128 ≤ b.toNat := by
          by_cases hx : b.toNat < 128
          · exact absurd ((top_clear b).2 hx) h80
          · omega
        have := ih (i + 1) (by omega) (by omega) (by
          intro j c hj hc
          by_cases hji : j = i
          · subst hji; rw [hg] at hc; cases hc; exact hge
          · exact hp j c (by omega) hc)
        rw [show i + 1 + k = i + (k + 1) by omega] at this
        rcases this with ⟨w, e, a, b', c⟩ | h | h
        · exact Or.inl ⟨w, e, by omega, b', c⟩
        · exact Or.inr (Or.inl h)
        · exact Or.inr (Or.inr h)

theorem HasField.idx {place : List Byte} {n w : Nat} (h : HasField place n w) : Idx place w :=
  (idx_iff place w h.2.1).1 h.2.2.2.1

theorem fieldSize_spec (place : List Byte) (n : Nat) (hn : n ≤ place.length) :
    (∃ w, fieldSize place n = .ok (.ok, w) ∧ HasField place n w) ∨
    ((∃ st, fieldSize place n = .ok (st, 0) ∧ st ≠ .ok ∧ (st = .truncated ∨ st = .fieldOverflow)) ∧
      ∀ w, ¬ HasField place n w) := by
  unfold fieldSize
  generalize hl : (if n < 10 then n else 10) = limit
  have hlim : limit ≤ 10 ∧ limit ≤ n ∧ (limit = n ∨ limit = 10) := by split at hl <;> omega
  simp only []
  rcases fieldLoop_spec place limit 0 (by omega) (by omega) (by intro j b h; omega) with
    ⟨w, e, h1, h2, h3, h4⟩ | ⟨e, h1, h2⟩ | ⟨e, h1⟩
  · refine Or.inl ⟨w, by rw [e]; rfl, by omega, h3.2.1, by omega, (idx_iff _ _ h3.2.1).2 h3, h4⟩
  · refine Or.inr ⟨⟨.fieldOverflow, by rw [e]; rfl, by decide, Or.inr rfl⟩, ?_⟩
    intro w hw
    exact h2 w hw.idx (by have := hw.2.2.1; omega) hw.2.2.2.2
  · refine Or.inr ⟨⟨if n < 10 then .truncated else .fieldOverflow, by rw [e]; rfl, by split <;> decide, by split <;> simp⟩, ?_⟩
    intro w hw
    exact h1 w hw.idx (by have := hw.1; have := hw.2.2.1; omega)

theorem fieldSize_of_has {place : List Byte} {n w : Nat} (hn : n ≤ place.length) (h : HasField place n w) :
    fieldSize place n = .ok (.ok, w) := by
  rcases fieldSize_spec place n hn with ⟨w', e, h'⟩ | ⟨_, h'⟩
  · rw [e, idx_unique h'.idx h.idx]
  · exact absurd h (h' w)

/-! ### write -/

theorem mod_range (x : Int) (v : U64) (w : Nat) (h : (v.toNat : Int) = x % 2 ^ 64) :
    ((v.toNat % 2 ^ (7 * w) : Nat) : Int) = x % (range w : Nat) := by
  unfold range
  have hlt := v.isLt
  by_cases hw : 7 * w ≤ 64
  · rw [Nat.min_eq_left hw, Int.natCast_emod, h]
    apply Int.emod_emod_of_dvd
    have : (2 : Nat) ^ (7 * w) ∣ 2 ^ 64 := Nat.pow_dvd_pow 2 hw
    exact_mod_cast Int.natCast_dvd_natCast.2 this
  · rw [Nat.min_eq_right (by omega), Nat.mod_eq_of_lt, h]
    · rfl
    · exact Nat.lt_of_lt_of_le hlt (Nat.pow_le_pow_right (by omega) (by omega))

theorem write_spec (place : List Byte) (w : Nat) (v : U64) (x : Int) (h0 : 0 < w) (h1 : w ≤ 10) (h2 : w ≤ place.length)
    (hx : (v.toNat : Int) = x % 2 ^ 64) :
    ∃ p, write place w v = .ok p ∧ Patched place p w x := by
  refine ⟨groups w v ++ place.drop w, by unfold write; rw [if_pos ⟨h1, h2⟩], ?_⟩
  have hl := groups_length w v
  have ht : (groups w v ++ place.drop w).take w = groups w v := by
    rw [List.take_append_of_le_length (by omega), List.take_of_length_le (by omega)]
  refine ⟨by simp [hl]; omega, ?_, by rw [ht]; exact groups_field w v h0, ?_⟩
  · rw [List.drop_append_of_le_length (by omega), List.drop_of_length_le (by omega), List.nil_append]
  · rw [ht, groups_val]; exact mod_range x v w hx

theorem Patched.has {place p : List Byte} {n w : Nat} {x : Int} (h : HasField place n w) (hp : Patched place p w x) :
    HasField p n w := by
  obtain ⟨a, b, c, d, e⟩ := h
  obtain ⟨f, _, g, i⟩ := hp
  refine ⟨a, by omega, c, g, ?_⟩
  have : 0 < range w := Nat.two_pow_pos _
  have h1 := Int.emod_lt_of_pos x (show (0 : Int) < (range w : Nat) by omega)
  have h2 : range w ≤ 2 ^ 64 := Nat.pow_le_pow_right (by omega) (by omega)
  omega

end Nature.Uleb
