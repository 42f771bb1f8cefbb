import Verif.Riscv.Long
/-! Loading a number into a register. -/
namespace Nature.Riscv

variable {ρ : Type}

theorem run_append (M : Machine ρ) (a b : List (Insn × Nat)) (s : St ρ) : run M (a ++ b) s = run M b (run M a s) := by
  unfold run
  rw [List.foldl_append]

theorem run_cons (M : Machine ρ) (i : Insn × Nat) (b : List (Insn × Nat)) (s : St ρ) : run M (i :: b) s = run M b (exec M i.1 i.2 s) := rfl

theorem get_set_next {s : St ρ} {d : Nat} (h : d ≠ 0) (v : BitVec 64) (n : Nat) : ((s.set d v).next n).get d = v := by
  simp [St.get, St.set, St.next, h]

theorem set_next_set {s : St ρ} {d : Nat} (v w : BitVec 64) (n m : Nat) :
    (((s.set d v).next n).set d w).next m = (s.set d w).next (n + m) := by
  unfold St.set St.next
  by_cases h : d = 0
  · simp only [h, if_true]
    rw [BitVec.ofNat_add, BitVec.add_assoc]
  · simp only [h, if_false]
    rw [BitVec.ofNat_add, BitVec.add_assoc]
    congr 1
    funext q
    by_cases hq : q = d <;> simp [hq]

/-- 32-bit numbers in 64 bits. -/
theorem word_ofInt {v : Int} (h1 : -2 ^ 31 ≤ v) (h2 : v < 2 ^ 31) : word (BitVec.ofInt 32 v) = BitVec.ofInt 64 v := by
  unfold word
  apply BitVec.eq_of_toInt_eq
  rw [BitVec.toInt_signExtend_of_le (by omega), BitVec.toInt_ofInt, BitVec.toInt_ofInt]
  rw [Int.bmod_eq_of_le (by omega) (by omega), Int.bmod_eq_of_le (by omega) (by omega)]

theorem low_ofInt (v : Int) : low (BitVec.ofInt 64 v) = BitVec.ofInt 32 v := by
  unfold low
  apply BitVec.eq_of_toNat_eq
  rw [BitVec.toNat_setWidth, BitVec.toNat_ofInt, BitVec.toNat_ofInt]
  have : ((2 ^ 64 : Nat) : Int) = 18446744073709551616 := rfl
  have : ((2 ^ 32 : Nat) : Int) = 4294967296 := rfl
  omega

theorem ofInt32_congr {a b : Int} (h : a % 4294967296 = b % 4294967296) : BitVec.ofInt 32 a = BitVec.ofInt 32 b := by
  apply BitVec.eq_of_toNat_eq
  rw [BitVec.toNat_ofInt, BitVec.toNat_ofInt]
  have : ((2 ^ 32 : Nat) : Int) = 4294967296 := rfl
  rw [this, h]

theorem ofInt64_congr {a b : Int} (h : a % 18446744073709551616 = b % 18446744073709551616) : BitVec.ofInt 64 a = BitVec.ofInt 64 b := by
  apply BitVec.eq_of_toNat_eq
  rw [BitVec.toNat_ofInt, BitVec.toNat_ofInt]
  have : ((2 ^ 64 : Nat) : Int) = 18446744073709551616 := rfl
  rw [this, h]

theorem addiw_eval {w l v : Int} (h1 : -2 ^ 31 ≤ v) (h2 : v < 2 ^ 31) (h : (w * 4096 + l) % 4294967296 = v % 4294967296) :
    iEval .addiw (BitVec.ofInt 64 (w * 4096)) l = BitVec.ofInt 64 v := by
  show word (low _ + low _) = _
  rw [low_ofInt, low_ofInt, ← BitVec.ofInt_add, ofInt32_congr h, word_ofInt h1 h2]

theorem shl_ofInt (v : Int) : BitVec.ofInt 64 v <<< 12 = BitVec.ofInt 64 (v * 4096) := by
  rw [← BitVec.mul_twoPow_eq_shiftLeft]
  have : BitVec.twoPow 64 12 = BitVec.ofInt 64 4096 := by decide
  rw [this, BitVec.ofInt_mul]

theorem slli12_eval (v : Int) : iEval .slli (BitVec.ofInt 64 v) 12 = BitVec.ofInt 64 (v * 4096) := by
  show BitVec.ofInt 64 v <<< ((BitVec.ofInt 64 12).toNat % 64) = _
  exact shl_ofInt v

theorem addi_eval (v w : Int) : iEval .addi (BitVec.ofInt 64 v) w = BitVec.ofInt 64 (v + w) := by
  show BitVec.ofInt 64 v + BitVec.ofInt 64 w = _
  rw [BitVec.ofInt_add]

theorem ext_lui (v : Int) (h1 : -2 ^ 31 ≤ v) (h2 : v < 2 ^ 31 + 4096) :
    sgn 20 (ext v 31 12) * 4096 % 4294967296 = v / 4096 * 4096 % 4294967296 := by
  have e := ext_val v 31 12
  have p1 : (2 : Int) ^ 12 = 4096 := rfl
  have p2 : (2 : Int) ^ (31 - 12 + 1) = 1048576 := rfl
  have p3 : (2 : Int) ^ 20 = 1048576 := rfl
  have p4 : (2 : Nat) ^ (20 - 1) = 524288 := rfl
  rw [p1, p2] at e
  unfold sgn
  rw [p3, p4]
  split <;> omega

/-- The number of bytes. -/
def LiOk (M : Machine ρ) (d : Nat) (v : Int) (c : List Nat) : Prop :=
  ∀ (t : List Nat) (is : List (Insn × Nat)), Reads t is →
    ∃ js, Reads (c ++ t) (js ++ is) ∧ ∀ s : St ρ, run M js s = (s.set d (BitVec.ofInt 64 v)).next c.length

theorem exec_addi0 (M : Machine ρ) (d n : Nat) (v : Int) (s : St ρ) :
    exec M (.i .addi d 0 v) n s = (s.set d (BitVec.ofInt 64 v)).next n := by
  show (s.set d (0#64 + BitVec.ofInt 64 v)).next n = _
  rw [BitVec.zero_add]

theorem c16_length (h : Nat) : (c16 h).length = 2 := rfl
theorem c32_length (h : Nat) : (c32 h).length = 4 := rfl

/-- Two parts: a first one that leaves a number, and one more instruction on it. -/
theorem li_two {M : Machine ρ} {d : Nat} (hd : d ≠ 0) {v w : Int} {c1 c2 : List Nat} (h1 : LiOk M d w c1) {op : IOp} {l : Int}
    (h2 : ∀ t is, Reads t is → Reads (c2 ++ t) ((.i op d d l, c2.length) :: is))
    (he : iEval op (BitVec.ofInt 64 w) l = BitVec.ofInt 64 v) : LiOk M d v (c1 ++ c2) := by
  intro t is ht
  obtain ⟨js, hr, hs⟩ := h1 _ _ (h2 t is ht)
  refine ⟨js ++ [(.i op d d l, c2.length)], ?_, ?_⟩
  · rw [List.append_assoc, List.append_assoc]
    exact hr
  · intro s
    rw [run_append, hs]
    show exec M (.i op d d l) c2.length _ = _
    show ((((s.set d (BitVec.ofInt 64 w)).next c1.length)).set d (iEval op (((s.set d (BitVec.ofInt 64 w)).next c1.length).get d) l)).next c2.length = _
    rw [get_set_next hd, he, set_next_set, List.length_append]

theorem li_small (M : Machine ρ) {d : Nat} (hd : d < 32) {v : Int} (h : im12 v) : LiOk M d v (liSub d v) := by
  intro t is ht
  unfold im12 at h
  rw [liSub]
  split
  · rename_i h6
    simp only [isIm6, decide_eq_true_eq] at h6
    exact ⟨[(.i .addi d 0 v, 2)], cLI_reads hd (by omega) (by omega) ht, fun s => exec_addi0 M d 2 v s⟩
  · rw [dif_pos (by simp only [isIm12, decide_eq_true_eq]; omega)]
    exact ⟨[(.i .addi d 0 v, 4)], wI_reads .addi hd (by decide) h ht, fun s => exec_addi0 M d 4 v s⟩

/-- The low twelve bits as a signed number. -/
def lo12 (v : Int) : Int := if v % 4096 ≥ 2048 then v % 4096 - 4096 else v % 4096

theorem lo12_im (v : Int) : im12 (lo12 v) := by
  unfold im12 lo12
  split <;> omega

theorem cADDIW_or {d : Nat} (hd : d < 32) (h0 : d ≠ 0) {l : Int} (hl : im12 l) (t : List Nat) (is : List (Insn × Nat)) (ht : Reads t is) :
    Reads ((if isIm6 l then cADDIW d l else wI .addiw d d l) ++ t)
      ((.i .addiw d d l, (if isIm6 l then cADDIW d l else wI .addiw d d l).length) :: is) := by
  by_cases h : isIm6 l = true
  · rw [if_pos h]
    simp only [isIm6, decide_eq_true_eq] at h
    exact cADDIW_reads hd (by omega) (by omega) h0 ht
  · rw [if_neg h]
    exact wI_reads .addiw hd hd hl ht

theorem cADDI_or {d : Nat} (hd : d < 32) {l : Int} (hl : im12 l) (t : List Nat) (is : List (Insn × Nat)) (ht : Reads t is) :
    Reads ((if isIm6 l then cADDI d l else wI .addi d d l) ++ t)
      ((.i .addi d d l, (if isIm6 l then cADDI d l else wI .addi d d l).length) :: is) := by
  by_cases h : isIm6 l = true
  · rw [if_pos h]
    simp only [isIm6, decide_eq_true_eq] at h
    exact cADDI_reads hd (by omega) (by omega) ht
  · rw [if_neg h]
    exact wI_reads .addi hd hd hl ht

/-- The upper part of a 32-bit number. -/
theorem lui_ok (M : Machine ρ) {d : Nat} (hd : d < 32) (h2 : d ≠ 2) {v : Int} (h : v / 4096 ≠ 0) :
    LiOk M d ((if isIm6 (v / 4096) then v / 4096 else sgn 20 (ext v 31 12)) * 4096)
      (if isIm6 (v / 4096) then cLUI d v else c32 (utype v d 0x37)) := by
  intro t is ht
  by_cases h6 : isIm6 (v / 4096) = true
  · simp only [h6, if_true]
    simp only [isIm6, decide_eq_true_eq] at h6
    exact ⟨[(.lui d (v / 4096), 2)], cLUI_reads hd h2 h (by omega) (by omega) ht, fun s => rfl⟩
  · simp only [h6]
    exact ⟨[(.lui d (sgn 20 (ext v 31 12)), 4)], lui_reads hd ht, fun s => rfl⟩

theorem lui_val {v : Int} (h1 : -2 ^ 31 ≤ v) (h2 : v < 2 ^ 31 + 4096) :
    (if isIm6 (v / 4096) then v / 4096 else sgn 20 (ext v 31 12)) * 4096 % 4294967296 = v / 4096 * 4096 % 4294967296 := by
  split
  · rfl
  · exact ext_lui v h1 h2

/-- opcode.c:545-579: every 64-bit number is loaded. -/
theorem li_ok (M : Machine ρ) {d : Nat} (hd : d < 32) (h0 : d ≠ 0) (h2 : d ≠ 2) (v : Int) : LiOk M d v (liSub d v) := by
  by_cases hs : im12 v
  · exact li_small M hd hs
  rw [liSub]
  have n6 : ¬ isIm6 v = true := by
    unfold im12 at hs
    simp only [isIm6, decide_eq_true_eq]
    omega
  have n12 : ¬ isIm12 v = true := by
    unfold im12 at hs
    simp only [isIm12, decide_eq_true_eq]
    omega
  rw [dif_neg n6, dif_neg n12]
  split
  · rename_i h32
    simp only [isIm32, decide_eq_true_eq] at h32
    have hne : (if v % 4096 ≥ 2048 then v + 4096 else v) / 4096 ≠ 0 := by
      unfold im12 at hs
      split <;> omega
    refine li_two h0 (lui_ok M hd h2 hne) (cADDIW_or hd h0 (lo12_im v)) ?_
    refine addiw_eval (by omega) (by omega) ?_
    rw [Int.add_emod, lui_val (by split <;> omega) (by split <;> omega)]
    split <;> omega
  · have ih := li_ok M hd h0 h2 (if v % 4096 ≥ 2048 then v / 4096 + 1 else v / 4096)
    have s1 : LiOk M d ((if v % 4096 ≥ 2048 then v / 4096 + 1 else v / 4096) * 4096)
        (liSub d (if v % 4096 ≥ 2048 then v / 4096 + 1 else v / 4096) ++ cSLLI d 12) :=
      li_two h0 ih (fun t is ht => cSLLI_reads hd (by omega) (by omega) ht) (slli12_eval _)
    refine li_two h0 s1 (cADDI_or hd (lo12_im v)) ?_
    rw [addi_eval]
    congr 1
    split <;> omega
termination_by v.natAbs
decreasing_by
  rename_i h32
  simp only [isIm32, decide_eq_true_eq] at h32
  split <;> omega

/-- `opcode_data` has 26 bytes. -/
theorem li_length (d : Nat) (k : Nat) (v : Int) (h1 : -(134217728 * 4096 ^ k) ≤ v) (h2 : v ≤ 134217728 * 4096 ^ k) :
    (liSub d v).length ≤ 8 + 6 * k := by
  induction k generalizing v with
  | zero =>
    simp only [Int.pow_zero] at h1 h2
    rw [liSub]
    split
    · show 2 ≤ _
      omega
    · split
      · show 4 ≤ _
        omega
      · rw [dif_pos (by simp only [isIm32, decide_eq_true_eq]; omega)]
        simp only [List.length_append]
        have a1 : ∀ w : Int, (if isIm6 (w / 4096) then cLUI d w else c32 (utype w d 0x37)).length ≤ 4 := by
          intro w; split <;> first | exact (by decide : 2 ≤ 4) | exact Nat.le_refl 4
        have a2 : ∀ l : Int, (if isIm6 l then cADDIW d l else wI .addiw d d l).length ≤ 4 := by
          intro w; split <;> first | exact (by decide : 2 ≤ 4) | exact Nat.le_refl 4
        have := a1 (if v % 4096 ≥ 2048 then v + 4096 else v)
        have := a2 (lo12 v)
        unfold lo12 at this
        omega
  | succ k ih =>
    rw [Int.pow_succ] at h1 h2
    rw [liSub]
    split
    · show 2 ≤ _
      omega
    · split
      · show 4 ≤ _
        omega
      · split
        · simp only [List.length_append]
          have a1 : ∀ w : Int, (if isIm6 (w / 4096) then cLUI d w else c32 (utype w d 0x37)).length ≤ 4 := by
            intro w; split <;> first | exact (by decide : 2 ≤ 4) | exact Nat.le_refl 4
          have a2 : ∀ l : Int, (if isIm6 l then cADDIW d l else wI .addiw d d l).length ≤ 4 := by
            intro w; split <;> first | exact (by decide : 2 ≤ 4) | exact Nat.le_refl 4
          have := a1 (if v % 4096 ≥ 2048 then v + 4096 else v)
          have := a2 (lo12 v)
          unfold lo12 at this
          omega
        · simp only [List.length_append]
          have a2 : ∀ l : Int, (if isIm6 l then cADDI d l else wI .addi d d l).length ≤ 4 := by
            intro w; split <;> first | exact (by decide : 2 ≤ 4) | exact Nat.le_refl 4
          have a3 : (cSLLI d 12).length = 2 := rfl
          have := a2 (lo12 v)
          unfold lo12 at this
          have := ih (if v % 4096 ≥ 2048 then v / 4096 + 1 else v / 4096) (by split <;> omega) (by split <;> omega)
          omega

end Nature.Riscv
