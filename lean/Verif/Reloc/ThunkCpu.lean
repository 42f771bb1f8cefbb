import Verif.Reloc.ThunkPlan
import Verif.Reloc.ThunkSpec
import Verif.Reloc.ArmProps
/-! Lemmas about the instructions of a far call. -/
namespace Nature.Reloc.Thunk

theorem insn_congr {l m : Bytes} (h : ∀ j, j < 4 → l[j]? = m[j]?) : insn l = insn m := by
  rw [← readU32_eq, ← readU32_eq]
  simp only [readU32, List.getD_eq_getElem?_getD]
  rw [h 0 (by omega), h 1 (by omega), h 2 (by omega), h 3 (by omega)]

/-- `bytes` stand at offset `o` of `d`. -/
def Holds (d : Bytes) (o : Nat) (bytes : Bytes) : Prop := ∀ j, j < bytes.length → d[o + j]? = bytes[j]?

theorem insn_at {d bytes : Bytes} {o n : Nat} (h : Holds d o bytes) (hn : n + 4 ≤ bytes.length) :
    insn (d.drop (o + n)) = insn (bytes.drop n) := by
  apply insn_congr
  intro j hj
  rw [List.getElem?_drop, List.getElem?_drop, Nat.add_assoc]
  exact h (n + j) (by omega)

/-! ### One branch -/

theorem ofInt_natCast (n : Nat) (a : Nat) : BitVec.ofInt n (a : Int) = BitVec.ofNat n a := by
  simp

theorem branch_target {v : BitVec 26} {place target : Nat} (h : v.toInt * 4 = (target : Int) - place) :
    BitVec.ofNat 64 place + v.signExtend 64 * 4#64 = BitVec.ofNat 64 target := by
  rw [show v.signExtend 64 = BitVec.ofInt 64 v.toInt from rfl, show (4#64) = BitVec.ofInt 64 4 from rfl, ← BitVec.ofInt_mul,
    ← ofInt_natCast 64 place, ← BitVec.ofInt_add, h, ← ofInt_natCast 64 target]
  congr 1
  omega

theorem page_and (x : BitVec 64) : x &&& ~~~ 0xfff#64 = BitVec.ofNat 64 (x.toNat - x.toNat % 4096) := by
  have e : x &&& ~~~ 0xfff#64 = (x >>> 12) <<< 12 := by
    apply BitVec.eq_of_getLsbD_eq
    intro i hi
    simp only [BitVec.getLsbD_and, BitVec.getLsbD_not, BitVec.getLsbD_shiftLeft, BitVec.getLsbD_ushiftRight]
    rw [show (0xfff#64).getLsbD i = decide (i < 12) from by
      rw [show (0xfff#64) = BitVec.ofNat 64 (2 ^ 12 - 1) from rfl, BitVec.getLsbD_ofNat, Nat.testBit_two_pow_sub_one]
      simp [hi]]
    by_cases h : i < 12
    · simp [h]
    · simp [h, hi, show 12 + (i - 12) = i from by omega]
  rw [e]
  apply BitVec.eq_of_toNat_eq
  have hx := x.isLt
  rw [BitVec.toNat_shiftLeft, BitVec.toNat_ushiftRight, Nat.shiftRight_eq_div_pow, Nat.shiftLeft_eq, BitVec.toNat_ofNat,
    Nat.mod_eq_of_lt (by omega), Nat.mod_eq_of_lt (by omega)]
  omega

/-- The distance of two pages. -/
theorem encode_some {thunk target : Nat} {bytes : Bytes} (h : encode thunk target = some bytes) :
    thunk % 4 = 0 ∧ target % 4 = 0 ∧ ∃ delta : Int, delta = ((target / 4096 : Nat) : Int) - ((thunk / 4096 : Nat) : Int) ∧
      -2 ^ 20 ≤ delta ∧ delta < 2 ^ 20 ∧
      bytes = writeU32 [] (Arm.writeAdr 0x90000010#32 delta) ++ writeU32 [] (0x91000210#32 ||| (BitVec.ofNat 32 (target % 4096) <<< 10)) ++
        writeU32 [] 0xd61f0200#32 := by
  unfold encode at h
  split at h
  · cases h
  · simp only [Option.bind_eq_some_iff] at h
    obtain ⟨delta, hd, h⟩ := h
    refine ⟨by omega, by omega, delta, ?_, ?_, ?_, ?_⟩
    · split at hd <;> split at hd <;> first | (cases hd; done) | (have := Option.some.inj hd; omega)
    · split at hd <;> split at hd <;> first | (cases hd; done) | (have := Option.some.inj hd; omega)
    · split at hd <;> split at hd <;> first | (cases hd; done) | (have := Option.some.inj hd; omega)
    · exact (Option.some.inj h).symm

theorem add_bits (v : BitVec 12) : (0x91000210#32 ||| (v.setWidth 32 <<< 10)) = 0b1001000100#10 ++ v ++ 0b1000010000#10 := by
  apply BitVec.eq_of_getLsbD_eq
  intro i hi
  have h : i = 0 ∨ i = 1 ∨ i = 2 ∨ i = 3 ∨ i = 4 ∨ i = 5 ∨ i = 6 ∨ i = 7 ∨ i = 8 ∨ i = 9 ∨ i = 10 ∨ i = 11 ∨ i = 12 ∨ i = 13 ∨ i = 14 ∨ i = 15 ∨ i = 16 ∨ i = 17 ∨ i = 18 ∨ i = 19 ∨ i = 20 ∨ i = 21 ∨ i = 22 ∨ i = 23 ∨ i = 24 ∨ i = 25 ∨ i = 26 ∨ i = 27 ∨ i = 28 ∨ i = 29 ∨ i = 30 ∨ i = 31 := by omega
  rcases h with rfl | rfl | rfl | rfl | rfl | rfl | rfl | rfl | rfl | rfl | rfl | rfl | rfl | rfl | rfl | rfl | rfl | rfl | rfl | rfl | rfl | rfl | rfl | rfl | rfl | rfl | rfl | rfl | rfl | rfl | rfl | rfl <;>
    simp only [BitVec.getLsbD_setWidth, BitVec.getLsbD_append, BitVec.getLsbD_or, BitVec.getLsbD_shiftLeft] <;> simp

theorem add_fields (v : BitVec 12) : (0b1001000100#10 ++ v ++ 0b1000010000#10).extractLsb' 22 10 = 0b1001000100#10 ∧
    (0b1001000100#10 ++ v ++ 0b1000010000#10).extractLsb' 10 12 = v ∧ (0b1001000100#10 ++ v ++ 0b1000010000#10).extractLsb' 0 5 = 16#5 ∧
    (0b1001000100#10 ++ v ++ 0b1000010000#10).extractLsb' 5 5 = 16#5 ∧ (0b1001000100#10 ++ v ++ 0b1000010000#10).extractLsb' 26 6 = 0b100100#6 ∧
    (0b1001000100#10 ++ v ++ 0b1000010000#10).extractLsb' 24 5 = 0b10001#5 := by
  refine ⟨?_, ?_, ?_, ?_, ?_, ?_⟩
  all_goals
    apply BitVec.eq_of_getLsbD_eq
    intro i hi
    have h : i = 0 ∨ i = 1 ∨ i = 2 ∨ i = 3 ∨ i = 4 ∨ i = 5 ∨ i = 6 ∨ i = 7 ∨ i = 8 ∨ i = 9 ∨ i = 10 ∨ i = 11 := by omega
    rcases h with rfl | rfl | rfl | rfl | rfl | rfl | rfl | rfl | rfl | rfl | rfl | rfl <;>
      first
      | omega
      | (simp only [BitVec.getLsbD_extractLsb', BitVec.getLsbD_append] <;> simp)

theorem adrp_op (delta : Int) : (Arm.writeAdr 0x90000010#32 delta).extractLsb' 26 6 ≠ 0b000101#6 ∧
    (Arm.writeAdr 0x90000010#32 delta).extractLsb' 26 6 ≠ 0b100101#6 := by
  have h := Arm.keep_adr24 0x90000010#32 delta
  have e : (Arm.writeAdr 0x90000010#32 delta).extractLsb' 26 3 = ((Arm.writeAdr 0x90000010#32 delta).extractLsb' 24 5).extractLsb' 2 3 := by
    apply BitVec.eq_of_getLsbD_eq
    intro i hi
    simp only [BitVec.getLsbD_extractLsb']
    simp [hi, show 2 + i < 5 from by omega, show 24 + (2 + i) = 26 + i from by omega]
  have e2 : (Arm.writeAdr 0x90000010#32 delta).extractLsb' 26 3 = ((Arm.writeAdr 0x90000010#32 delta).extractLsb' 26 6).extractLsb' 0 3 := by
    apply BitVec.eq_of_getLsbD_eq
    intro i hi
    simp only [BitVec.getLsbD_extractLsb']
    simp [hi, show i < 6 from by omega]
  rw [h] at e
  constructor <;>
  · intro hc
    rw [hc] at e2
    rw [e2] at e
    revert e
    decide

theorem cat21 (a : BitVec 19) (b : BitVec 2) : (a ++ b).signExtend 64 = BitVec.ofInt 64 (((a ++ b).setWidth 21).toInt) := by
  rw [BitVec.setWidth_eq]
  rfl

theorem step_adrp {c : Cpu} {thunk : Nat} {delta : Int} (hpc : c.pc = BitVec.ofNat 64 thunk) (ht : thunk < 2 ^ 64)
    (h1 : -2 ^ 20 ≤ delta) (h2 : delta < 2 ^ 20) :
    step (Arm.writeAdr 0x90000010#32 delta) c =
      some { (c.put 16 (BitVec.ofInt 64 (((thunk / 4096 : Nat) + delta) * 4096))) with pc := c.pc + 4#64 } := by
  unfold step
  simp only
  rw [if_neg (adrp_op delta).1, if_neg (adrp_op delta).2, Arm.keep_adr24, Arm.keep_adr31, Arm.keep_adr0, if_pos (by decide),
    if_neg (by decide), cat21, Arm.bits_adr]
  have hv : ((BitVec.ofInt 32 delta).setWidth 21).toInt = delta := by
    rw [Rv.ofInt_setWidth (by omega), Rv.toInt_ofInt_fits (by omega) h1 h2]
  rw [hv, hpc, page_and, BitVec.toNat_ofNat, Nat.mod_eq_of_lt ht]
  have e : BitVec.ofNat 64 (thunk - thunk % 4096) + BitVec.ofInt 64 delta <<< 12 = BitVec.ofInt 64 (((thunk / 4096 : Nat) + delta) * 4096) := by
   rw [BitVec.shiftLeft_eq_mul_twoPow, show BitVec.twoPow 64 12 = BitVec.ofInt 64 4096 from by decide, ← BitVec.ofInt_mul, ← ofInt_natCast,
    ← BitVec.ofInt_add]
   congr 1
   omega
  rw [e]
  rfl

theorem step_add {c : Cpu} (low : Nat) (hl : low < 4096) :
    step (0x91000210#32 ||| (BitVec.ofNat 32 low <<< 10)) c =
      some { (c.put 16 (c.x 16 + BitVec.ofNat 64 low)) with pc := c.pc + 4#64 } := by
  have e : (0x91000210#32 ||| (BitVec.ofNat 32 low <<< 10)) = 0b1001000100#10 ++ BitVec.ofNat 12 low ++ 0b1000010000#10 := by
    rw [← add_bits]
    congr 2
    apply BitVec.eq_of_toNat_eq
    simp [Nat.mod_eq_of_lt hl, Nat.mod_eq_of_lt (show low < 4294967296 from by omega)]
  rw [e]
  obtain ⟨f1, f2, f3, f4, f5, f6⟩ := add_fields (BitVec.ofNat 12 low)
  unfold step
  simp only
  rw [f1, f2, f3, f4, f5, f6, if_neg (by decide), if_neg (by decide), if_neg (fun h => absurd h.1 (by decide)), if_pos rfl, if_neg (by decide)]
  congr 4
  apply BitVec.eq_of_toNat_eq
  simp [Nat.mod_eq_of_lt hl, Nat.mod_eq_of_lt (show low < 18446744073709551616 from by omega)]

theorem step_br (c : Cpu) : step 0xd61f0200#32 c = some { c with pc := c.x 16 } := by
  unfold step
  simp only
  rw [if_neg (by decide), if_neg (by decide), if_neg (by decide), if_neg (by decide), if_pos (by decide), if_neg (by decide)]
  rfl

theorem run_step {base : Nat} {text : Bytes} {n : Nat} {c c' : Cpu} {a : Nat} (hpc : c.pc = BitVec.ofNat 64 a) (ha : a < 2 ^ 64)
    (h1 : base ≤ a) (h2 : a + 4 ≤ base + text.length) (hs : step (insn (text.drop (a - base))) c = some c') :
    run base text (n + 1) c = run base text n c' := by
  simp only [run]
  rw [hpc, BitVec.toNat_ofNat, Nat.mod_eq_of_lt ha, if_pos ⟨h1, h2⟩, hs]
  rfl

theorem insn_cat (v : BitVec 32) (r : Bytes) : insn (writeU32 [] v ++ r) = v := by
  rw [show writeU32 [] v ++ r = writeU32 ([0, 0, 0, 0] ++ r) v from by simp [writeU32]]
  exact insn_writeU32 _ _

theorem len4 (v : BitVec 32) : (writeU32 [] v).length = 4 := by simp [writeU32]

theorem insn_cat4 (a b : BitVec 32) (r : Bytes) : insn ((writeU32 [] a ++ writeU32 [] b ++ r).drop 4) = b := by
  rw [List.append_assoc, List.drop_left' (len4 a)]
  exact insn_cat b r

theorem insn_cat8 (a b c : BitVec 32) : insn ((writeU32 [] a ++ writeU32 [] b ++ writeU32 [] c).drop 8) = c := by
  rw [List.drop_left' (by rw [List.length_append, len4, len4])]
  have := insn_cat c []
  rwa [List.append_nil] at this

/-- Three instructions at a thunk lead to its target. -/
theorem thunk_runs {base thunk target : Nat} {text bytes : Bytes} (hb : base ≤ thunk) (hlen : thunk + 12 ≤ base + text.length)
    (hw : base + text.length ≤ 2 ^ 64) (he : encode thunk target = some bytes) (hh : Holds text (thunk - base) bytes)
    (c : Cpu) (hpc : c.pc = BitVec.ofNat 64 thunk) :
    ∃ c', run base text 3 c = some c' ∧ c'.pc = BitVec.ofNat 64 target ∧ ∀ r, r ≠ 16 → c'.x r = c.x r := by
  obtain ⟨_, _, delta, hd, h1, h2, hbytes⟩ := encode_some he
  have hl : bytes.length = 12 := by rw [hbytes, List.length_append, List.length_append, len4, len4, len4]
  have i0 : insn (text.drop (thunk - base)) = Arm.writeAdr 0x90000010#32 delta := by
    have := insn_at (n := 0) hh (by omega)
    rw [Nat.add_zero] at this
    rw [this, hbytes, List.drop_zero, List.append_assoc, insn_cat]
  have i1 : insn (text.drop (thunk + 4 - base)) = (0x91000210#32 ||| (BitVec.ofNat 32 (target % 4096) <<< 10)) := by
    have := insn_at (n := 4) hh (by omega)
    rw [show thunk + 4 - base = thunk - base + 4 from by omega, this, hbytes, insn_cat4]
  have i2 : insn (text.drop (thunk + 8 - base)) = 0xd61f0200#32 := by
    have := insn_at (n := 8) hh (by omega)
    rw [show thunk + 8 - base = thunk - base + 8 from by omega, this, hbytes, insn_cat8]
  have e4 : ∀ a : Nat, BitVec.ofNat 64 a + 4#64 = BitVec.ofNat 64 (a + 4) := by
    intro a
    rw [← BitVec.ofNat_add]
  have s0 := step_adrp hpc (by omega) h1 h2
  rw [← i0] at s0
  generalize hc1 : ({ (c.put 16 (BitVec.ofInt 64 (((thunk / 4096 : Nat) + delta) * 4096))) with pc := c.pc + 4#64 } : Cpu) = c1 at s0
  have p1 : c1.pc = BitVec.ofNat 64 (thunk + 4) := by rw [← hc1]; simp only; rw [hpc, e4]
  have x1 : ∀ r, c1.x r = if r = 16 then BitVec.ofInt 64 (((thunk / 4096 : Nat) + delta) * 4096) else c.x r := by
    intro r; rw [← hc1]; rfl
  have s1 := step_add (c := c1) (target % 4096) (Nat.mod_lt _ (by omega))
  rw [← i1] at s1
  generalize hc2 : ({ (c1.put 16 (c1.x 16 + BitVec.ofNat 64 (target % 4096))) with pc := c1.pc + 4#64 } : Cpu) = c2 at s1
  have p2 : c2.pc = BitVec.ofNat 64 (thunk + 8) := by
    rw [← hc2]
    simp only
    rw [p1, e4]
  have x2 : ∀ r, c2.x r = if r = 16 then c1.x 16 + BitVec.ofNat 64 (target % 4096) else c1.x r := by
    intro r; rw [← hc2]; rfl
  have s2 := step_br c2
  rw [← i2] at s2
  refine ⟨{ c2 with pc := c2.x 16 }, ?_, ?_, ?_⟩
  · rw [run_step hpc (by omega) hb (by omega) s0, run_step p1 (by omega) (by omega) (by omega) s1,
      run_step p2 (by omega) (by omega) (by omega) s2]
    rfl
  · simp only
    rw [x2, if_pos rfl, x1, if_pos rfl, ← ofInt_natCast, ← BitVec.ofInt_add, ← ofInt_natCast]
    congr 1
    omega
  · intro r hr
    simp only
    rw [x2, if_neg hr, x1, if_neg hr]

end Nature.Reloc.Thunk
