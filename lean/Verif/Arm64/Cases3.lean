import Verif.Arm64.Cases2
/-! Extended and shifted operands, bit fields. -/
namespace Nature.Arm64
variable {M : Fpu}

/-! ### Additions with an extended or a shifted operand -/

theorem opt_amt : ∀ o : Fin 8, ∀ a : Fin 5, 0 <<< 10 ||| sh (o : Nat) 13 ||| sh (a : Nat) 10 = ((o : Nat) * 8 + (a : Nat)) <<< 10 := by decide

theorem dec_adde {t o amt m n d : Nat} {sub q : Bool} (ht : t = 0x59 + (if sub then 512 else 0) + (if q then 1024 else 0)) (ho : o < 8)
    (ha : amt < 5) : decodeF t m (o * 8 + amt) n d = some (.addsube sub false q o amt m n d) := by
  have h1 : (o * 8 + amt) / 8 = o := by omega
  have h2 : (o * 8 + amt) % 8 = amt := by omega
  have h3 : ¬ 4 < amt := by omega
  subst ht
  cases sub <;> cases q <;> simp [decodeF, isOne, h1, h2, h3]

theorem aluExt_e_good {sub q : Bool} {d a b : R} {o amt : Int} (hb : b ≠ .sp) (h0 : 0 ≤ o) (h8 : o < 8) (a0 : 0 ≤ amt) (a4 : amt ≤ 4)
    (hd : d ≠ .zr) (ha : a ≠ .zr) : Good M (.aluExt sub q d a b o amt) := by
  obtain ⟨i, rfl⟩ := Int.eq_ofNat_of_zero_le h0
  obtain ⟨j, rfl⟩ := Int.eq_ofNat_of_zero_le a0
  have hi : i < 8 := by omega
  have hj : j < 5 := by omega
  have hoa : 0 <<< 10 ||| sh i 13 ||| sh j 10 = (i * 8 + j) <<< 10 := opt_amt ⟨i, hi⟩ ⟨j, hj⟩
  have hw : ∀ (s : St) (v : BitVec (wd q)), s.puts d.num v = d.put s v := fun s v => puts_num s v hd
  have hx : ∀ s : St, s.sr q a.num = a.val s q := fun s => sr_num s _ ha
  have e : ∀ s, exec M (.addsube sub false q i j b.num a.num d.num) s = effect M (.aluExt sub q d a b i j) s := by
    intro s
    have : (i : Int) < 8 := by omega
    simp only [exec, effect, hx, hw, xz_num s hb, extVal, sum, if_pos this, Int.toNat_natCast]
    rfl
  have hm : matchOp (instOf (.aluExt sub q d a b i j)) = some .r := by cases sub <;> cases q <;> mt
  have hlt : (i : Int) < 8 := by omega
  have wE : ∀ {c t : Nat}, c = t <<< 21 ||| 0 <<< 10 → t ≠ 0 → t < 2048 →
      Word (c ||| b.num <<< 16 ||| sh i 13 ||| sh j 10 ||| a.num <<< 5 ||| d.num) t b.num (i * 8 + j) a.num d.num := fun hc h1 h2 =>
    wordE hc hoa h1 h2 (num_lt _) (by omega) (num_lt _) (num_lt _)
  cases sub <;> cases q
  · exact good (w := W_ADD_E 0 d.num a.num b.num i j) (wE (t := 0x59) rfl (by decide) (by decide)) hm (by hn hlt) (dec_adde (sub := false) (q := false) rfl hi hj) e
  · exact good (w := W_ADD_E 1 d.num a.num b.num i j) (wE (t := 0x459) rfl (by decide) (by decide)) hm (by hn hlt) (dec_adde (sub := false) (q := true) rfl hi hj) e
  · exact good (w := W_SUB_E 0 d.num a.num b.num i j) (wE (t := 0x259) rfl (by decide) (by decide)) hm (by hn hlt) (dec_adde (sub := true) (q := false) rfl hi hj) e
  · exact good (w := W_SUB_E 1 d.num a.num b.num i j) (wE (t := 0x659) rfl (by decide) (by decide)) hm (by hn hlt) (dec_adde (sub := true) (q := true) rfl hi hj) e

theorem dec_adds {t k amt m n d : Nat} {sub q : Bool} (ht : t = 0x58 + 2 * k + (if sub then 512 else 0) + (if q then 1024 else 0)) (hk : k < 3)
    (ha : amt < wd q) : decodeF t m amt n d = some (.addsubs sub false q (shiftOf k) amt m n d) := by
  have hk3 : k = 0 ∨ k = 1 ∨ k = 2 := by omega
  subst ht
  cases q
  · have : ¬ 32 ≤ amt := by
      have : wd false = 32 := rfl
      omega
    cases sub <;> rcases hk3 with rfl | rfl | rfl <;> simp [decodeF, isOne, this]
  · cases sub <;> rcases hk3 with rfl | rfl | rfl <;> simp [decodeF, isOne]

theorem aluExt_s_good {sub q : Bool} {d a b : R} {o amt : Int} (hb : b ≠ .sp) (h8 : 8 ≤ o) (h10 : o ≤ 10) (a0 : 0 ≤ amt) (aw : amt < wd q)
    (hd : d ≠ .sp) (ha : a ≠ .sp) : Good M (.aluExt sub q d a b o amt) := by
  obtain ⟨j, rfl⟩ := Int.eq_ofNat_of_zero_le a0
  obtain ⟨k, hk, rfl⟩ : ∃ k : Nat, k < 3 ∧ o = 8 + k := ⟨(o - 8).toNat, by omega, by omega⟩
  have hj : j < wd q := by omega
  have hj6 : j < 64 := by
    have : wd q ≤ 64 := by cases q <;> decide
    omega
  have hl : low 6 j = j := by
    rw [low_nat (by omega) (by omega)]
    rfl
  have hw : ∀ (s : St) (v : BitVec (wd q)), s.putz d.num v = d.put s v := fun s v => putz_num s v hd
  have e : ∀ s, exec M (.addsubs sub false q (shiftOf k) j b.num a.num d.num) s = effect M (.aluExt sub q d a b (8 + k) j) s := by
    intro s
    have h1 : ¬ (8 + (k : Int) < 8) := by omega
    have hk3 : k = 0 ∨ k = 1 ∨ k = 2 := by omega
    simp only [exec, effect, addsub, sum, hw, extVal, zr_num s q ha, zr_num s q hb, if_neg h1, Int.toNat_natCast]
    rcases hk3 with rfl | rfl | rfl
    · rfl
    · rfl
    · rfl
  have hm : matchOp (instOf (.aluExt sub q d a b (8 + k) j)) = some .r := by cases sub <;> cases q <;> mt
  have hnl : ¬ (8 + (k : Int) < 8) := by omega
  have w4 : ∀ {c t : Nat}, c = t <<< 21 → t ≠ 0 → t < 2048 →
      Word (c ||| b.num <<< 16 ||| low 6 j <<< 10 ||| a.num <<< 5 ||| d.num) t b.num j a.num d.num := fun hc h1 h2 => by
    have := word4 (x := low 6 j) hc h1 h2 (num_lt b) (low_lt _ _) (num_lt a) (num_lt d)
    rw [hl] at this ⊢
    exact this
  have hk3 : k = 0 ∨ k = 1 ∨ k = 2 := by omega
  rcases hk3 with rfl | rfl | rfl <;> cases sub <;> cases q
  · exact good (w := W_ADD_S 0 d.num a.num b.num 0 j) (w4 (t := 0x58) rfl (by decide) (by decide)) hm rfl (dec_adds (k := 0) (sub := false) (q := false) rfl hk hj) e
  · exact good (w := W_ADD_S 1 d.num a.num b.num 0 j) (w4 (t := 0x458) rfl (by decide) (by decide)) hm rfl (dec_adds (k := 0) (sub := false) (q := true) rfl hk hj) e
  · exact good (w := W_SUB_S 0 d.num a.num b.num 0 j) (w4 (t := 0x258) rfl (by decide) (by decide)) hm rfl (dec_adds (k := 0) (sub := true) (q := false) rfl hk hj) e
  · exact good (w := W_SUB_S 1 d.num a.num b.num 0 j) (w4 (t := 0x658) rfl (by decide) (by decide)) hm rfl (dec_adds (k := 0) (sub := true) (q := true) rfl hk hj) e
  · exact good (w := W_ADD_S 0 d.num a.num b.num 1 j) (w4 (t := 0x5a) rfl (by decide) (by decide)) hm rfl (dec_adds (k := 1) (sub := false) (q := false) rfl hk hj) e
  · exact good (w := W_ADD_S 1 d.num a.num b.num 1 j) (w4 (t := 0x45a) rfl (by decide) (by decide)) hm rfl (dec_adds (k := 1) (sub := false) (q := true) rfl hk hj) e
  · exact good (w := W_SUB_S 0 d.num a.num b.num 1 j) (w4 (t := 0x25a) rfl (by decide) (by decide)) hm rfl (dec_adds (k := 1) (sub := true) (q := false) rfl hk hj) e
  · exact good (w := W_SUB_S 1 d.num a.num b.num 1 j) (w4 (t := 0x65a) rfl (by decide) (by decide)) hm rfl (dec_adds (k := 1) (sub := true) (q := true) rfl hk hj) e
  · exact good (w := W_ADD_S 0 d.num a.num b.num 2 j) (w4 (t := 0x5c) rfl (by decide) (by decide)) hm rfl (dec_adds (k := 2) (sub := false) (q := false) rfl hk hj) e
  · exact good (w := W_ADD_S 1 d.num a.num b.num 2 j) (w4 (t := 0x45c) rfl (by decide) (by decide)) hm rfl (dec_adds (k := 2) (sub := false) (q := true) rfl hk hj) e
  · exact good (w := W_SUB_S 0 d.num a.num b.num 2 j) (w4 (t := 0x25c) rfl (by decide) (by decide)) hm rfl (dec_adds (k := 2) (sub := true) (q := false) rfl hk hj) e
  · exact good (w := W_SUB_S 1 d.num a.num b.num 2 j) (w4 (t := 0x65c) rfl (by decide) (by decide)) hm rfl (dec_adds (k := 2) (sub := true) (q := true) rfl hk hj) e

/-! ### Bit fields -/

theorem bfm_lsr {w : Nat} {n : Nat} (h : n < w) (v : BitVec w) : bfm false n (w - 1) v = v >>> n := by
  unfold bfm
  have hn : n ≤ w - 1 := by omega
  have hs : w - 1 - n + 1 = w - n := by omega
  simp only [hn, hs, if_true]
  apply BitVec.eq_of_toNat_eq
  have hv := v.isLt
  have hlt : v.toNat / 2 ^ n < 2 ^ (w - n) := by
    rw [Nat.div_lt_iff_lt_mul (Nat.pow_pos (by decide)), ← Nat.pow_add]
    have : w - n + n = w := by omega
    rw [this]
    exact hv
  have hlw : v.toNat / 2 ^ n < 2 ^ w := Nat.lt_of_le_of_lt (Nat.div_le_self _ _) hv
  simp [BitVec.toNat_ushiftRight, Nat.shiftRight_eq_div_pow, Nat.mod_eq_of_lt hlt, Nat.mod_eq_of_lt hlw]

theorem bfm_lsl {w : Nat} {n : Nat} (h : n < w) (v : BitVec w) :
    bfm false (if n = 0 then 0 else w - n) (w - 1 - n) v = v <<< n := by
  by_cases hn : n = 0
  · subst hn
    simp only [if_true]
    have := bfm_lsr h v
    simpa using this
  · simp only [if_neg hn]
    unfold bfm
    have h1 : ¬ w - n ≤ w - 1 - n := by omega
    have h2 : w - 1 - n + 1 = w - n := by omega
    have h3 : w - (w - n) = n := by omega
    simp only [h1, h2, h3, if_false]
    apply BitVec.eq_of_toNat_eq
    have hp : 2 ^ w = 2 ^ (w - n) * 2 ^ n := by
      rw [← Nat.pow_add]
      congr 1
      omega
    simp only [Bool.false_eq_true, if_false, BitVec.toNat_ofNat, BitVec.toNat_shiftLeft, Nat.shiftLeft_eq]
    rw [hp, Nat.mul_mod_mul_right, Nat.mul_mod_mul_right, Nat.mod_mod]

theorem sgn_toInt {k : Nat} {x : BitVec k} : sgn k x.toNat = x.toInt := by
  unfold sgn
  rw [BitVec.toInt_eq_toNat_cond]
  cases k with
  | zero =>
    have := x.isLt
    simp at this
    simp [this]
  | succ m =>
    have : (2 : Nat) ^ (m + 1) = 2 * 2 ^ m := by rw [Nat.pow_succ, Nat.mul_comm]
    have e : m + 1 - 1 = m := by omega
    rw [e]
    by_cases hx : x.toNat < 2 ^ m
    · rw [if_pos hx, if_pos (by omega)]
    · rw [if_neg hx, if_neg (by omega)]
      simp

theorem bfm_asr {w : Nat} {n : Nat} (h : n < w) (v : BitVec w) : bfm true n (w - 1) v = v.sshiftRight n := by
  unfold bfm
  have hn : n ≤ w - 1 := by omega
  have hs : w - 1 - n + 1 = w - n := by omega
  simp only [hn, hs, if_true]
  unfold BitVec.sshiftRight
  congr 1
  rw [← sgn_toInt]
  have hv := v.isLt
  have hlt : v.toNat / 2 ^ n < 2 ^ (w - n) := by
    rw [Nat.div_lt_iff_lt_mul (Nat.pow_pos (by decide)), ← Nat.pow_add]
    have : w - n + n = w := by omega
    rw [this]
    exact hv
  rw [Nat.mod_eq_of_lt hlt, Int.shiftRight_eq_div_pow]
  unfold sgn
  have hp : (2 : Nat) ^ (w - 1) = 2 ^ (w - n - 1) * 2 ^ n := by
    rw [← Nat.pow_add]
    congr 1
    omega
  have hpos : 0 < 2 ^ n := Nat.pow_pos (by decide)
  have hiff : v.toNat / 2 ^ n < 2 ^ (w - n - 1) ↔ v.toNat < 2 ^ (w - 1) := by
    rw [Nat.div_lt_iff_lt_mul hpos, hp]
  by_cases hx : v.toNat < 2 ^ (w - 1)
  · rw [if_pos hx, if_pos (hiff.2 hx)]
    norm_cast
  · rw [if_neg hx, if_neg (fun g => hx (hiff.1 g))]
    have hq : (2 : Int) ^ w = 2 ^ (w - n) * 2 ^ n := by
      rw [← Int.pow_add]
      congr 1
      omega
    have hz : (2 : Int) ^ n ≠ 0 := Int.ne_of_gt (Int.pow_pos (by omega))
    rw [hq]
    norm_cast
    have := Int.sub_mul_ediv_right (v.toNat : Int) (2 ^ (w - n)) hz
    norm_cast at this ⊢
    rw [this]

theorem wordB {c t rn rd : Nat} {r s : Nat} (hc : c = t <<< 21) (t0 : t ≠ 0) (t1 : t < 2048) (t2 : t % 2 = 0) (r1 : r < 64) (s1 : s < 64)
    (n1 : rn < 32) (d1 : rd < 32) : Word (c ||| sh r 16 ||| sh s 10 ||| rn <<< 5 ||| rd) (t + r / 32) (r % 32) s rn rd := by
  have h1 : sh r 16 = r <<< 16 := by
    rw [sh_nat (n := 6) (by omega) (by omega) (by decide)]
    rfl
  have h2 : sh s 10 = s <<< 10 := by
    rw [sh_nat (n := 6) (by omega) (by omega) (by decide)]
    rfl
  rw [h1, h2]
  exact word66 hc t0 t1 t2 r1 s1 n1 d1

theorem dec_bfm {t r s n d : Nat} {signed q : Bool} (ht : t = 0x98 + (if signed then 0 else 512) + (if q then 1026 else 0)) (hr : r < wd q)
    (hs : s < wd q) : decodeF (t + r / 32) (r % 32) s n d = some (.bfm signed q r s n d) := by
  subst ht
  cases q
  · have h32 : wd false = 32 := rfl
    rw [h32] at hr hs
    have h0 : r / 32 = 0 := by omega
    have h1 : r % 32 = r := by omega
    have h2 : ¬ 32 ≤ s := by omega
    rw [h0, h1]
    cases signed <;> simp [decodeF, isOne, h2]
  · have h64 : wd true = 64 := rfl
    rw [h64] at hr hs
    have h01 : r / 32 = 0 ∨ r / 32 = 1 := by omega
    have he : r / 32 * 32 + r % 32 = r := by omega
    cases signed <;> rcases h01 with h | h <;> rw [h] at he ⊢ <;> simp [decodeF, isOne] <;> omega

theorem shift_good {q : Bool} {op : AluI} {d a : R} {v : Int} (hop : op = .lsl ∨ op = .lsr ∨ op = .asr) (hd : d ≠ .sp) (ha : a ≠ .sp)
    (h0 : 0 ≤ v) (h1 : v < wd q) : Good M (.alui op q d a v) := by
  obtain ⟨n, rfl⟩ := Int.eq_ofNat_of_zero_le h0
  have hn : n < wd q := by omega
  have h64 : wd q ≤ 64 := by cases q <;> decide
  have hw : ∀ (s : St) (v : BitVec (wd q)), s.putz d.num v = d.put s v := fun s v => putz_num s v hd
  have hr : ¬ ((n : Int) < -4095 ∨ 4095 < (n : Int)) := by omega
  have hx : ∀ s : St, s.zr q a.num = a.val s q := fun s => zr_num s _ ha
  rcases hop with rfl | rfl | rfl
  · have e : ∀ s, exec M (.bfm false q (if n = 0 then 0 else wd q - n) (wd q - 1 - n) a.num d.num) s = effect M (.alui .lsl q d a n) s := by
      intro s
      simp only [exec, effect, hw, hx, bfm_lsl hn, aluIVal, Int.toNat_natCast]
    have hm : matchOp (instOf (.alui .lsl q d a n)) = some .i := by cases q <;> mt
    cases q
    · have h32 : wd false = 32 := rfl
      rw [h32] at hn
      refine good (w := P_LSL_I 0 d.num a.num n) (t := 0x298 + (if n = 0 then 0 else wd false - n) / 32) ?_ hm (by hn hr)
        (dec_bfm (signed := false) (q := false) rfl (by rw [h32]; split <;> omega) (by rw [h32]; omega)) e
      have i1 : ((-(n : Int)) % ((msb 0 : Nat) + 1)) = (((if n = 0 then 0 else wd false - n : Nat)) : Int) := by
        have : msb 0 = 31 := rfl
        rw [this, h32]
        split <;> omega
      have i2 : ((msb 0 : Nat) : Int) - n = ((wd false - 1 - n : Nat) : Int) := by
        have : msb 0 = 31 := rfl
        rw [this, h32]
        omega
      unfold P_LSL_I W_UBFM
      rw [i1, i2]
      exact wordB (t := 0x298) rfl (by decide) (by decide) (by decide) (by rw [h32]; split <;> omega) (by rw [h32]; omega) (num_lt _) (num_lt _)
    · have h32 : wd true = 64 := rfl
      rw [h32] at hn
      refine good (w := P_LSL_I 1 d.num a.num n) (t := 0x69a + (if n = 0 then 0 else wd true - n) / 32) ?_ hm (by hn hr)
        (dec_bfm (signed := false) (q := true) rfl (by rw [h32]; split <;> omega) (by rw [h32]; omega)) e
      have i1 : ((-(n : Int)) % ((msb 1 : Nat) + 1)) = (((if n = 0 then 0 else wd true - n : Nat)) : Int) := by
        have : msb 1 = 63 := rfl
        rw [this, h32]
        split <;> omega
      have i2 : ((msb 1 : Nat) : Int) - n = ((wd true - 1 - n : Nat) : Int) := by
        have : msb 1 = 63 := rfl
        rw [this, h32]
        omega
      unfold P_LSL_I W_UBFM
      rw [i1, i2]
      exact wordB (t := 0x69a) rfl (by decide) (by decide) (by decide) (by rw [h32]; split <;> omega) (by rw [h32]; omega) (num_lt _) (num_lt _)
  · have e : ∀ s, exec M (.bfm false q n (wd q - 1) a.num d.num) s = effect M (.alui .lsr q d a n) s := by
      intro s
      simp only [exec, effect, hw, hx, bfm_lsr hn, aluIVal, Int.toNat_natCast]
    have hm : matchOp (instOf (.alui .lsr q d a n)) = some .i := by cases q <;> mt
    cases q
    · exact good (w := P_LSR_I 0 d.num a.num n)
        (wordB (t := 0x298) (s := wd false - 1) rfl (by decide) (by decide) (by decide) (by omega) (by decide) (num_lt _) (num_lt _)) hm (by hn hr)
        (dec_bfm (signed := false) (q := false) rfl hn (by decide)) e
    · exact good (w := P_LSR_I 1 d.num a.num n)
        (wordB (t := 0x69a) (s := wd true - 1) rfl (by decide) (by decide) (by decide) (by omega) (by decide) (num_lt _) (num_lt _)) hm (by hn hr)
        (dec_bfm (signed := false) (q := true) rfl hn (by decide)) e
  · have e : ∀ s, exec M (.bfm true q n (wd q - 1) a.num d.num) s = effect M (.alui .asr q d a n) s := by
      intro s
      simp only [exec, effect, hw, hx, bfm_asr hn, aluIVal, Int.toNat_natCast]
    have hm : matchOp (instOf (.alui .asr q d a n)) = some .i := by cases q <;> mt
    cases q
    · exact good (w := P_ASR_I 0 d.num a.num n)
        (wordB (t := 0x98) (s := wd false - 1) rfl (by decide) (by decide) (by decide) (by omega) (by decide) (num_lt _) (num_lt _)) hm (by hn hr)
        (dec_bfm (signed := true) (q := false) rfl hn (by decide)) e
    · exact good (w := P_ASR_I 1 d.num a.num n)
        (wordB (t := 0x49a) (s := wd true - 1) rfl (by decide) (by decide) (by decide) (by omega) (by decide) (num_lt _) (num_lt _)) hm (by hn hr)
        (dec_bfm (signed := true) (q := true) rfl hn (by decide)) e

/-! ### Extensions -/

theorem bfm_sx {w k : Nat} (hk : k + 1 ≤ w) (v : BitVec 64) (hw : w ≤ 64) : bfm true 0 k (v.setWidth w) = sext (k + 1) w v := by
  unfold bfm sext BitVec.signExtend
  simp only [Nat.zero_le, if_true, Nat.pow_zero, Nat.div_one, Nat.sub_zero]
  congr 1
  rw [← sgn_toInt]
  congr 1
  simp only [BitVec.toNat_setWidth]
  exact Nat.mod_mod_of_dvd _ (Nat.pow_dvd_pow 2 hk)

theorem bfm_ux {w k : Nat} (hk : k + 1 ≤ 32) (v : BitVec 64) (hw : 32 ≤ w) (hw2 : w ≤ 64) :
    (bfm false 0 k (v.setWidth 32)).setWidth 64 = ((v.setWidth (k + 1)).setWidth w).setWidth 64 := by
  unfold bfm
  simp only [Nat.zero_le, if_true, Nat.pow_zero, Nat.div_one, Nat.sub_zero]
  apply BitVec.eq_of_toNat_eq
  have h1 : v.toNat % 2 ^ 32 % 2 ^ (k + 1) = v.toNat % 2 ^ (k + 1) := Nat.mod_mod_of_dvd _ (Nat.pow_dvd_pow 2 hk)
  have hlt : v.toNat % 2 ^ (k + 1) < 2 ^ (k + 1) := Nat.mod_lt _ (Nat.pow_pos (by decide))
  have l1 : 2 ^ (k + 1) ≤ 2 ^ 32 := Nat.pow_le_pow_right (by decide) hk
  have l2 : 2 ^ (k + 1) ≤ 2 ^ w := Nat.pow_le_pow_right (by decide) (by omega)
  have l3 : 2 ^ (k + 1) ≤ 2 ^ 64 := Nat.pow_le_pow_right (by decide) (by omega)
  simp only [Bool.false_eq_true, if_false, BitVec.toNat_setWidth, BitVec.toNat_ofNat, h1]
  rw [Nat.mod_eq_of_lt (Nat.lt_of_lt_of_le hlt l1), Nat.mod_eq_of_lt (Nat.lt_of_lt_of_le hlt l2)]

macro "kB" t:term ";" s:term : term =>
  `(wordB (t := $t) (r := 0) (s := $s) rfl (by decide) (by decide) (by decide) (by decide) (by decide) (num_lt _) (num_lt _))

theorem ext_good {q : Bool} {k : Ext} {d a : R} (hd : d ≠ .sp) (ha : a ≠ .sp) (hq : k = .sw ∨ k = .uw → q = true) :
    Good M (.ext k q d a) := by
  have hw : ∀ (s : St) {w : Nat} (v : BitVec w), s.putz d.num v = d.put s v := fun s w v => putz_num s v hd
  have hx : ∀ (s : St) (q : Bool), s.zr q a.num = a.val s q := fun s q => zr_num s _ ha
  have h32 : 32 ≤ wd q := by cases q <;> decide
  have h64 : wd q ≤ 64 := by cases q <;> decide
  cases k with
  | sb =>
    have e : ∀ s, exec M (.bfm true q 0 7 a.num d.num) s = effect M (.ext .sb q d a) s := by
      intro s
      simp only [exec, effect, hw, hx, Ext.val, R.val]
      rw [bfm_sx (by omega) _ h64]
    cases q
    · exact good (op := .same) (w := W_SBFM 0 d.num 0 a.num 0 7) (kB 0x98; 7) (by mt) rfl rfl e
    · exact good (op := .same) (w := W_SBFM 1 d.num 1 a.num 0 7) (kB 0x49a; 7) (by mt) rfl rfl e
  | sh =>
    have e : ∀ s, exec M (.bfm true q 0 15 a.num d.num) s = effect M (.ext .sh q d a) s := by
      intro s
      simp only [exec, effect, hw, hx, Ext.val, R.val]
      rw [bfm_sx (by omega) _ h64]
    cases q
    · exact good (op := .same) (w := W_SBFM 0 d.num 0 a.num 0 15) (kB 0x98; 15) (by mt) rfl rfl e
    · exact good (op := .same) (w := W_SBFM 1 d.num 1 a.num 0 15) (kB 0x49a; 15) (by mt) rfl rfl e
  | sw =>
    have hq' : q = true := hq (.inl rfl)
    subst hq'
    have e : ∀ s, exec M (.bfm true true 0 31 a.num d.num) s = effect M (.ext .sw true d a) s := by
      intro s
      simp only [exec, effect, hw, hx, Ext.val, R.val]
      rw [bfm_sx (by omega) _ h64]
    exact good (op := .same) (w := W_SBFM 1 d.num 1 a.num 0 31) (kB 0x49a; 31) (by mt) rfl rfl e
  | ub =>
    have e : ∀ s, exec M (.bfm false false 0 7 a.num d.num) s = effect M (.ext .ub q d a) s := by
      intro s
      have := bfm_ux (w := wd q) (k := 7) (by decide) (a.get s) h32 h64
      simp only [exec, effect, hw, hx, Ext.val, R.val, R.put]
      rw [← this]
      rfl
    cases q
    · exact good (op := .same) (w := W_UBFM 0 d.num 0 a.num 0 7) (kB 0x298; 7) (by mt) rfl rfl e
    · exact good (op := .same) (w := W_UBFM 0 d.num 0 a.num 0 7) (kB 0x298; 7) (by mt) rfl rfl e
  | uh =>
    have e : ∀ s, exec M (.bfm false false 0 15 a.num d.num) s = effect M (.ext .uh q d a) s := by
      intro s
      have := bfm_ux (w := wd q) (k := 15) (by decide) (a.get s) h32 h64
      simp only [exec, effect, hw, hx, Ext.val, R.val, R.put]
      rw [← this]
      rfl
    cases q
    · exact good (op := .same) (w := W_UBFM 0 d.num 0 a.num 0 15) (kB 0x298; 15) (by mt) rfl rfl e
    · exact good (op := .same) (w := W_UBFM 0 d.num 0 a.num 0 15) (kB 0x298; 15) (by mt) rfl rfl e
  | uw =>
    have hq' : q = true := hq (.inr rfl)
    subst hq'
    have e : ∀ s, exec M (.logic .orr false false .lsl 0 a.num 31 d.num) s = effect M (.ext .uw true d a) s := by
      intro s
      have h31 : s.zr false 31 = 0 := zr_31 s false
      have h2 : ∀ x : BitVec 32, (x.setWidth (wd true)).setWidth 64 = x.setWidth 64 := fun x => by
        change (x.setWidth 64).setWidth 64 = _
        simp
      simp only [exec, effect, hw, hx, Ext.val, R.val, R.put, h31, shiftBy, h2]
      simp
      rfl
    exact good (op := .same) (w := P_MOV 0 d.num a.num)
      (word4 (t := 0x150) (x := 0) rfl (by decide) (by decide) (num_lt _) (by decide) (by decide) (num_lt _)) (by mt) rfl rfl e

end Nature.Arm64
