import Verif.Arm64.Cases1
/-! Moves, immediates, comparisons, bit fields. -/
namespace Nature.Arm64
variable {M : Fpu}

/-! ### Numbers -/

theorem ofInt_pos {v : Int} (w : Nat) (h : 0 ≤ v) : BitVec.ofNat w v.toNat = BitVec.ofInt w v := by
  obtain ⟨m, rfl⟩ := Int.eq_ofNat_of_zero_le h
  simp

theorem ofInt_minus (w : Nat) (v : Int) : BitVec.ofInt w (-v) = -BitVec.ofInt w v := by
  exact BitVec.ofInt_neg

theorem ofNat_shift (w a k : Nat) : BitVec.ofNat w (a * 2 ^ k) = BitVec.ofNat w a <<< k := by
  apply BitVec.eq_of_toNat_eq
  simp [BitVec.toNat_shiftLeft, Nat.shiftLeft_eq]

theorem top12 {t v : Nat} (h : v < 4096) : t + v / 2048 = t ∨ t + v / 2048 = t + 1 := by omega

/-- A 12-bit number is put together again. -/
theorem imm12 {v : Nat} (h : v < 4096) : v / 2048 % 2 * 2 ^ 11 + v / 64 % 32 * 2 ^ 6 + v % 64 = v := by omega
theorem imm16 {v : Nat} (h : v < 65536) : v / 2048 * 2 ^ 11 + v / 32 % 64 * 2 ^ 5 + v % 32 = v := by omega

/-! ### Moves -/

theorem mov_good {q : Bool} {d a : R} (h1 : d.spOk q) (h2 : a.spOk q) (h3 : d = .sp → a ≠ .zr) (h4 : a = .sp → d ≠ .zr) :
    Good M (.mov q d a) := by
  by_cases hs : d ≠ .sp ∧ a ≠ .sp
  · obtain ⟨hd, ha⟩ := hs
    have i1 := isSp_false hd
    have i2 := isSp_false ha
    have e : ∀ s, exec M (.logic .orr false q .lsl 0 a.num 31 d.num) s = effect M (.mov q d a) s := by
      intro s
      have hw : ∀ (s : St) (v : BitVec (wd q)), s.putz d.num v = d.put s v := fun s v => putz_num s v hd
      simp [exec, effect, shiftBy, zr_num s q ha, zr_31, hw]
    cases q
    · exact good (op := .same) (w := P_MOV 0 d.num a.num) (word4 (t := 0x150) (x := 0) rfl (by decide) (by decide) (num_lt _) (by decide) (by decide) (num_lt _)) (by mt) (by hn i1 i2) rfl e
    · exact good (op := .same) (w := P_MOV 1 d.num a.num) (word4 (t := 0x550) (x := 0) rfl (by decide) (by decide) (num_lt _) (by decide) (by decide) (num_lt _)) (by mt) (by hn i1 i2) rfl e
  · have hq : q = true := by
      by_cases hd : d = .sp
      · exact h1 hd
      · by_cases ha : a = .sp
        · exact h2 ha
        · exact absurd ⟨hd, ha⟩ hs
    have hz : d ≠ .zr ∧ a ≠ .zr := by
      by_cases hd : d = .sp
      · exact ⟨by rw [hd]; decide, h3 hd⟩
      · by_cases ha : a = .sp
        · exact ⟨h4 ha, by rw [ha]; decide⟩
        · exact absurd ⟨hd, ha⟩ hs
    subst hq
    have i : d.isSp = true ∨ a.isSp = true := by
      by_cases hd : d = .sp
      · exact .inl (by rw [hd]; rfl)
      · by_cases ha : a = .sp
        · exact .inr (by rw [ha]; rfl)
        · exact absurd ⟨hd, ha⟩ hs
    have e : ∀ s, exec M (.addsubi false false true 0 a.num d.num) s = effect M (.mov true d a) s := by
      intro s
      have hw : ∀ (s : St) (v : BitVec (wd true)), s.puts d.num v = d.put s v := fun s v => puts_num s v hz.1
      have hx : s.sr true a.num = a.val s true := sr_num s _ hz.2
      simp [exec, effect, sum, hx, hw]
    refine good (op := .same) (w := P_MOV_SP 1 d.num a.num)
      (word12 (t := 0x488) (v := 0) rfl (by decide) (by decide) (by decide) (by decide) (num_lt _) (num_lt _)) (by mt) ?_ rfl e
    rcases i with i | i <;> hn i

macro "k16" t:term ";" v:term : term => `(word16 (t := $t) (v := $v) rfl (by decide) (by decide) (low_lt _ _) (num_lt _))

theorem movi_good {q : Bool} {d : R} {v : Int} (hd : d ≠ .sp) (h1 : -65536 ≤ v) (h2 : v < 65536) : Good M (.movi q d v) := by
  by_cases hv : 0 ≤ v
  · have hl : low 16 v = v.toNat := low_nat hv (by omega)
    have h16 := imm16 (low_lt 16 v)
    have e : ∀ s, exec M (.movz q 0 (low 16 v / 2048 * 2 ^ 11 + low 16 v / 32 % 64 * 2 ^ 5 + low 16 v % 32) d.num) s = effect M (.movi q d v) s := by
      intro s
      have hw : ∀ (s : St) (v : BitVec (wd q)), s.putz d.num v = d.put s v := fun s v => putz_num s v hd
      simp only [exec, effect, h16, hw]
      simp only [Nat.mul_zero, Nat.pow_zero, Nat.mul_one]
      rw [hl, ofInt_pos _ hv]
    cases q
    · exact good (op := .same) (w := W_MOVZ 0 d.num v 0) (k16 0x294; low 16 v) (by mt) (by hn hv) rfl e
    · exact good (op := .same) (w := W_MOVZ 1 d.num v 0) (k16 0x694; low 16 v) (by mt) (by hn hv) rfl e
  · have hl : low 16 (-v - 1) = (-v - 1).toNat := low_nat (by omega) (by omega)
    have h16 := imm16 (low_lt 16 (-v - 1))
    have e : ∀ s, exec M (.movn q 0 (low 16 (-v - 1) / 2048 * 2 ^ 11 + low 16 (-v - 1) / 32 % 64 * 2 ^ 5 + low 16 (-v - 1) % 32) d.num) s = effect M (.movi q d v) s := by
      intro s
      have hw : ∀ (s : St) (v : BitVec (wd q)), s.putz d.num v = d.put s v := fun s v => putz_num s v hd
      simp only [exec, effect, h16, hw]
      simp only [Nat.mul_zero, Nat.pow_zero, Nat.mul_one]
      rw [hl, ofInt_pos _ (by omega)]
      have : ~~~ BitVec.ofInt (wd q) (-v - 1) = BitVec.ofInt (wd q) v := by
        have h : -BitVec.ofInt (wd q) (-v - 1) = BitVec.ofInt (wd q) v + 1 := by
          rw [← ofInt_minus]
          have : -(-v - 1) = v + 1 := by omega
          rw [this, BitVec.ofInt_add]
          rfl
        rw [BitVec.neg_eq_not_add] at h
        have h2 := congrArg (· - 1) h
        simpa [BitVec.add_sub_cancel] using h2
      rw [this]
    cases q
    · exact good (op := .same) (w := W_MOVN 0 d.num (-v - 1) 0) (k16 0x094; low 16 (-v - 1)) (by mt) (by hn hv) rfl e
    · exact good (op := .same) (w := W_MOVN 1 d.num (-v - 1) 0) (k16 0x494; low 16 (-v - 1)) (by mt) (by hn hv) rfl e

theorem movk_good {q : Bool} {d : R} {v k : Int} (hd : d ≠ .sp) (h1 : 0 ≤ v) (h2 : v < 65536) (h3 : 0 ≤ k) (h4 : k % 16 = 0)
    (h5 : k < wd q) : Good M (.movk q d v k) := by
  have hl : low 16 v = v.toNat := low_nat h1 (by omega)
  have h16 := imm16 (low_lt 16 v)
  have e : ∀ j : Nat, k = 16 * j → ∀ s, exec M (.movk q j (low 16 v / 2048 * 2 ^ 11 + low 16 v / 32 % 64 * 2 ^ 5 + low 16 v % 32) d.num) s = effect M (.movk q d v k) s := by
    intro j hj s
    have hw : ∀ (s : St) (v : BitVec (wd q)), s.putz d.num v = d.put s v := fun s v => putz_num s v hd
    have hk : k.toNat = 16 * j := by omega
    simp only [exec, effect, h16, hw, hk, zr_num s q hd, ofNat_shift]
    rw [hl, ofInt_pos _ h1]
  cases q
  · have hk : k = 0 ∨ k = 16 := by
      change k < ((32 : Nat) : Int) at h5
      omega
    rcases hk with rfl | rfl
    · exact good (op := .same) (w := W_MOVK 0 d.num v 0) (k16 0x394; low 16 v) (by mt) rfl rfl (e 0 rfl)
    · exact good (op := .same) (w := W_MOVK 0 d.num v 1) (k16 0x395; low 16 v) (by mt) rfl rfl (e 1 rfl)
  · have hk : k = 0 ∨ k = 16 ∨ k = 32 ∨ k = 48 := by
      change k < ((64 : Nat) : Int) at h5
      omega
    rcases hk with rfl | rfl | rfl | rfl
    · exact good (op := .same) (w := W_MOVK 1 d.num v 0) (k16 0x794; low 16 v) (by mt) rfl rfl (e 0 rfl)
    · exact good (op := .same) (w := W_MOVK 1 d.num v 1) (k16 0x795; low 16 v) (by mt) rfl rfl (e 1 rfl)
    · exact good (op := .same) (w := W_MOVK 1 d.num v 2) (k16 0x796; low 16 v) (by mt) rfl rfl (e 2 rfl)
    · exact good (op := .same) (w := W_MOVK 1 d.num v 3) (k16 0x797; low 16 v) (by mt) rfl rfl (e 3 rfl)

/-! ### Additions of numbers -/

macro "k12" t:term ";" v:term : term =>
  `(word12 (t := $t) (v := $v) rfl (by decide) (by decide) (by decide) (low_lt _ _) (num_lt _) (num_lt _))

/-- The four forms of an addition or a subtraction of a 12-bit number. -/
theorem dec_addi {t v n d : Nat} {sub S q : Bool} (ht : t = 0x88 + (if sub then 512 else 0) + (if S then 256 else 0) + (if q then 1024 else 0))
    (hv : v < 4096) : decodeF (t + v / 2048) (v / 64 % 32) (v % 64) n d = some (.addsubi sub S q v n d) := by
  have hi := imm12 hv
  have h01 : v / 2048 = 0 ∨ v / 2048 = 1 := by omega
  subst ht
  cases sub <;> cases S <;> cases q <;> rcases h01 with h | h <;> rw [h] at hi ⊢ <;> exact congrArg (fun v => some (Insn.addsubi _ _ _ v n d)) hi

theorem alui_add_good {q : Bool} {sub : Bool} {d a : R} {v : Int} (hd : d ≠ .zr) (ha : a ≠ .zr) (h1 : -4095 ≤ v) (h2 : v ≤ 4095) :
    Good M (.alui (if sub then .sub else .add) q d a v) := by
  have hw : ∀ (s : St) (v : BitVec (wd q)), s.puts d.num v = d.put s v := fun s v => puts_num s v hd
  have hx : ∀ s : St, s.sr q a.num = a.val s q := fun s => sr_num s _ ha
  have hr : ¬ (v < -4095 ∨ 4095 < v) := by omega
  by_cases hv : 0 ≤ v
  · have hl : low 12 v = v.toNat := low_nat hv (by omega)
    have e : ∀ s, exec M (.addsubi sub false q (low 12 v) a.num d.num) s = effect M (.alui (if sub then .sub else .add) q d a v) s := by
      intro s
      simp only [exec, effect, sum, hx, hl, ofInt_pos _ hv, hw]
      cases sub <;> simp [aluIVal]
    have hm : matchOp (instOf (.alui (if sub then .sub else .add) q d a v)) = some .i := by cases sub <;> cases q <;> mt
    cases sub <;> cases q
    · exact good (w := W_ADD_I 0 d.num a.num v) (k12 0x88; low 12 v) hm (by hn hv hr) (dec_addi (sub := false) (S := false) (q := false) rfl (low_lt _ _)) e
    · exact good (w := W_ADD_I 1 d.num a.num v) (k12 0x488; low 12 v) hm (by hn hv hr) (dec_addi (sub := false) (S := false) (q := true) rfl (low_lt _ _)) e
    · exact good (w := W_SUB_I 0 d.num a.num v) (k12 0x288; low 12 v) hm (by hn hv hr) (dec_addi (sub := true) (S := false) (q := false) rfl (low_lt _ _)) e
    · exact good (w := W_SUB_I 1 d.num a.num v) (k12 0x688; low 12 v) hm (by hn hv hr) (dec_addi (sub := true) (S := false) (q := true) rfl (low_lt _ _)) e
  · have hl : low 12 (-v) = (-v).toNat := low_nat (by omega) (by omega)
    have e : ∀ s, exec M (.addsubi (!sub) false q (low 12 (-v)) a.num d.num) s = effect M (.alui (if sub then .sub else .add) q d a v) s := by
      intro s
      simp only [exec, effect, sum, hx, hl, ofInt_pos (v := -v) _ (by omega), hw, ofInt_minus]
      cases sub <;> simp [aluIVal, BitVec.sub_eq_add_neg]
    have hm : matchOp (instOf (.alui (if sub then .sub else .add) q d a v)) = some .i := by cases sub <;> cases q <;> mt
    cases sub <;> cases q
    · exact good (w := W_SUB_I 0 d.num a.num (-v)) (k12 0x288; low 12 (-v)) hm (by hn hv hr) (dec_addi (sub := true) (S := false) (q := false) rfl (low_lt _ _)) e
    · exact good (w := W_SUB_I 1 d.num a.num (-v)) (k12 0x688; low 12 (-v)) hm (by hn hv hr) (dec_addi (sub := true) (S := false) (q := true) rfl (low_lt _ _)) e
    · exact good (w := W_ADD_I 0 d.num a.num (-v)) (k12 0x88; low 12 (-v)) hm (by hn hv hr) (dec_addi (sub := false) (S := false) (q := false) rfl (low_lt _ _)) e
    · exact good (w := W_ADD_I 1 d.num a.num (-v)) (k12 0x488; low 12 (-v)) hm (by hn hv hr) (dec_addi (sub := false) (S := false) (q := true) rfl (low_lt _ _)) e

theorem aluSym_good {q : Bool} {sub : Bool} {d a : R} (hd : d ≠ .zr) (ha : a ≠ .zr) : Good M (.aluSym sub q d a) := by
  have hw : ∀ (s : St) (v : BitVec (wd q)), s.puts d.num v = d.put s v := fun s v => puts_num s v hd
  have hx : ∀ s : St, s.sr q a.num = a.val s q := fun s => sr_num s _ ha
  have e : ∀ s, exec M (.addsubi sub false q (low 12 0) a.num d.num) s = effect M (.aluSym sub q d a) s := by
    intro s
    have : low 12 0 = 0 := rfl
    simp only [exec, effect, sum, hx, hw, this]
    cases sub <;> simp
  have hm : matchOp (instOf (.aluSym sub q d a)) = some .i := by cases sub <;> cases q <;> mt
  cases sub <;> cases q
  · exact good (w := W_ADD_I 0 d.num a.num 0) (k12 0x88; low 12 0) hm (by hn) (dec_addi (sub := false) (S := false) (q := false) rfl (low_lt _ _)) e
  · exact good (w := W_ADD_I 1 d.num a.num 0) (k12 0x488; low 12 0) hm (by hn) (dec_addi (sub := false) (S := false) (q := true) rfl (low_lt _ _)) e
  · exact good (w := W_SUB_I 0 d.num a.num 0) (k12 0x288; low 12 0) hm (by hn) (dec_addi (sub := true) (S := false) (q := false) rfl (low_lt _ _)) e
  · exact good (w := W_SUB_I 1 d.num a.num 0) (k12 0x688; low 12 0) hm (by hn) (dec_addi (sub := true) (S := false) (q := true) rfl (low_lt _ _)) e

/-! ### Comparisons -/

theorem putz_31 {w : Nat} (s : St) (v : BitVec w) : s.putz 31 v = s := by
  simp [St.putz, St.setz]

macro "k12'" t:term ";" v:term : term =>
  `(word12 (t := $t) (v := $v) rfl (by decide) (by decide) (by decide) (low_lt _ _) (num_lt _) (by decide))

theorem cmpi_good {q : Bool} {a : R} {v : Int} (ha : a ≠ .zr) (h1 : 0 ≤ v) (h2 : v ≤ 4095) : Good M (.cmpi q a v) := by
  have hx : ∀ s : St, s.sr q a.num = a.val s q := fun s => sr_num s _ ha
  have hr : ¬ (v < 0 ∨ 4095 < v) := by omega
  have hl : low 12 v = v.toNat := low_nat h1 (by omega)
  have e : ∀ s, exec M (.addsubi true true q (low 12 v) a.num 31) s = effect M (.cmpi q a v) s := by
    intro s
    simp only [exec, effect, sum, hx, hl, ofInt_pos _ h1, putz_31, addsub]
    simp
  cases q
  · exact good (op := .i) (w := P_CMP_I 0 a.num v) (k12' 0x388; low 12 v) (by mt) (by hn hr) (dec_addi (sub := true) (S := true) (q := false) rfl (low_lt _ _)) e
  · exact good (op := .i) (w := P_CMP_I 1 a.num v) (k12' 0x788; low 12 v) (by mt) (by hn hr) (dec_addi (sub := true) (S := true) (q := true) rfl (low_lt _ _)) e

theorem cmni_good {q : Bool} {a : R} {v : Int} (ha : a ≠ .zr) (h1 : 0 ≤ v) (h2 : v ≤ 4095) : Good M (.cmni q a v) := by
  have hx : ∀ s : St, s.sr q a.num = a.val s q := fun s => sr_num s _ ha
  have hr : ¬ (v < 0 ∨ 4095 < v) := by omega
  have hl : low 12 v = v.toNat := low_nat h1 (by omega)
  have e : ∀ s, exec M (.addsubi false true q (low 12 v) a.num 31) s = effect M (.cmni q a v) s := by
    intro s
    simp only [exec, effect, sum, hx, hl, ofInt_pos _ h1, putz_31, addsub]
    simp
  cases q
  · exact good (op := .i) (w := P_CMN_I 0 a.num v) (k12' 0x188; low 12 v) (by mt) (by hn hr) (dec_addi (sub := false) (S := true) (q := false) rfl (low_lt _ _)) e
  · exact good (op := .i) (w := P_CMN_I 1 a.num v) (k12' 0x588; low 12 v) (by mt) (by hn hr) (dec_addi (sub := false) (S := true) (q := true) rfl (low_lt _ _)) e

macro "k4'" t:term : term => `(word4 (t := $t) (x := 0) rfl (by decide) (by decide) (num_lt _) (by decide) (num_lt _) (by decide))

theorem cmp_good {q : Bool} {a b : R} (ha : a ≠ .sp) (hb : b ≠ .sp) : Good M (.cmp q a b) := by
  have e : ∀ s, exec M (.addsubs true true q .lsl 0 b.num a.num 31) s = effect M (.cmp q a b) s := by
    intro s
    simp [exec, effect, sum, putz_31, addsub, shiftBy, zr_num s q ha, zr_num s q hb]
  cases q
  · exact good (op := .r) (w := P_CMP 0 a.num b.num) (k4' 0x358) (by mt) (by hn) rfl e
  · exact good (op := .r) (w := P_CMP 1 a.num b.num) (k4' 0x758) (by mt) (by hn) rfl e

theorem cmn_good {q : Bool} {a b : R} (ha : a ≠ .sp) (hb : b ≠ .sp) : Good M (.cmn q a b) := by
  have e : ∀ s, exec M (.addsubs false true q .lsl 0 b.num a.num 31) s = effect M (.cmn q a b) s := by
    intro s
    simp [exec, effect, sum, putz_31, addsub, shiftBy, zr_num s q ha, zr_num s q hb]
  cases q
  · exact good (op := .r) (w := P_CMN 0 a.num b.num) (k4' 0x158) (by mt) (by hn) rfl e
  · exact good (op := .r) (w := P_CMN 1 a.num b.num) (k4' 0x558) (by mt) (by hn) rfl e

/-! ### Products -/

theorem madd_good {q : Bool} {d a b c : R} (hd : d ≠ .sp) (ha : a ≠ .sp) (hb : b ≠ .sp) (hc : c ≠ .sp) : Good M (.madd q d a b c) := by
  have hlt := num_lt c
  have e : ∀ s, exec M (.dp3 (isOne (c.num / 32)) q b.num (c.num % 32) a.num d.num) s = effect M (.madd q d a b c) s := by
    intro s
    have hw : ∀ (s : St) (v : BitVec (wd q)), s.putz d.num v = d.put s v := fun s v => putz_num s v hd
    rw [Nat.div_eq_of_lt hlt, Nat.mod_eq_of_lt hlt]
    simp [exec, effect, sum, isOne, zr_num s q ha, zr_num s q hb, zr_num s q hc, hw]
  cases q
  · exact good (op := .same) (w := W_MADD 0 d.num a.num b.num c.num)
      (word4 (t := 0x0d8) rfl (by decide) (by decide) (num_lt _) (Nat.lt_trans hlt (by decide)) (num_lt _) (num_lt _)) (by mt) rfl rfl e
  · exact good (op := .same) (w := W_MADD 1 d.num a.num b.num c.num)
      (word4 (t := 0x4d8) rfl (by decide) (by decide) (num_lt _) (Nat.lt_trans hlt (by decide)) (num_lt _) (num_lt _)) (by mt) rfl rfl e

theorem msub_good {q : Bool} {d a b c : R} (hd : d ≠ .sp) (ha : a ≠ .sp) (hb : b ≠ .sp) (hc : c ≠ .sp) : Good M (.msub q d a b c) := by
  have hlt := num_lt c
  have e : ∀ s, exec M (.dp3 (isOne ((32 + c.num) / 32)) q b.num ((32 + c.num) % 32) a.num d.num) s = effect M (.msub q d a b c) s := by
    intro s
    have hw : ∀ (s : St) (v : BitVec (wd q)), s.putz d.num v = d.put s v := fun s v => putz_num s v hd
    have h1 : (32 + c.num) / 32 = 1 := by omega
    have h2 : (32 + c.num) % 32 = c.num := by omega
    rw [h1, h2]
    simp [exec, effect, sum, isOne, zr_num s q ha, zr_num s q hb, zr_num s q hc, hw]
  cases q
  · exact good (op := .same) (w := W_MSUB 0 d.num a.num b.num c.num)
      (word4s (t := 0x0d8) rfl (by decide) (by decide) (num_lt _) hlt (num_lt _) (num_lt _)) (by mt) rfl rfl e
  · exact good (op := .same) (w := W_MSUB 1 d.num a.num b.num c.num)
      (word4s (t := 0x4d8) rfl (by decide) (by decide) (num_lt _) hlt (num_lt _) (num_lt _)) (by mt) rfl rfl e

/-- A complement of 64 bits. -/
theorem mvn_good {d a : R} (hd : d ≠ .sp) (ha : a ≠ .sp) : Good M (.mvn true d a) := by
  have e : ∀ s, exec M (.logic .orr true true .lsl 0 a.num 31 d.num) s = effect M (.mvn true d a) s := by
    intro s
    have hw : ∀ (s : St) (v : BitVec (wd true)), s.putz d.num v = d.put s v := fun s v => putz_num s v hd
    have hz : s.zr true a.num = a.val s true := zr_num s true ha
    have h31 : s.zr true 31 = 0 := zr_31 s true
    simp [exec, effect, shiftBy, hz, h31, hw]
  have hw : Word (W_ORN_S 1 d.num 31 a.num 0) 0x551 a.num 0 31 d.num := by
    refine ⟨?_, by decide, by decide, num_lt _, by decide, by decide, num_lt _⟩
    have h : ∀ t n r m : Nat, ((t ||| n) ||| r ||| n ||| m ||| 0) = t ||| m ||| 0 ||| n ||| r := by
      intro t n r m
      have : ((t ||| n) ||| r ||| n ||| m ||| 0) = t ||| m ||| 0 ||| (n ||| n) ||| r := by ac_rfl
      rw [this, Nat.or_self]
    exact h (0x551 <<< 21) (31 <<< 5) d.num (a.num <<< 16)
  exact good (op := .same) hw (by mt) rfl rfl e

end Nature.Arm64
