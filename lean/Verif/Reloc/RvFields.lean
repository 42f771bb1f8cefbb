import Verif.Reloc.IntLemmas
import Verif.Reloc.RvModel
/-! What the writers of the instruction fields put where. -/
set_option linter.unusedSimpArgs false
namespace Nature.Reloc.Rv

theorem ofInt_setWidth {m n : Nat} (h : n ≤ m) (x : Int) : (BitVec.ofInt m x).setWidth n = BitVec.ofInt n x := by
  apply BitVec.eq_of_toNat_eq
  have a := toNat_ofInt_emod m x
  have b := toNat_ofInt_emod n x
  rw [BitVec.toNat_setWidth]
  apply Int.ofNat.inj
  show (((BitVec.ofInt m x).toNat % 2 ^ n : Nat) : Int) = ((BitVec.ofInt n x).toNat : Int)
  rw [Int.natCast_emod, a, b, show ((2 ^ n : Nat) : Int) = 2 ^ n by simp]
  apply Int.emod_emod_of_dvd
  exact ⟨2 ^ (m - n), by rw [← Int.pow_add]; congr 1; omega⟩

theorem ofInt_even {n : Nat} (hn : 0 < n) {x : Int} (h : x % 2 = 0) : (BitVec.ofInt n x).getLsbD 0 = false := by
  have a := toNat_ofInt_emod n x
  have e : x % 2 ^ n % 2 = x % 2 := by
    apply Int.emod_emod_of_dvd
    exact ⟨2 ^ (n - 1), by rw [← Int.pow_succ']; congr 1; omega⟩
  have : (BitVec.ofInt n x).toNat % 2 = 0 := by omega
  rw [BitVec.getLsbD, Nat.testBit_zero, this]; rfl

theorem toInt_ofInt_fits {n : Nat} (hn : 0 < n) {x : Int} (h1 : -2 ^ (n - 1) ≤ x) (h2 : x < 2 ^ (n - 1)) :
    (BitVec.ofInt n x).toInt = x := by
  rw [BitVec.toInt_ofInt]
  have p : (2 : Nat) ^ n = 2 * 2 ^ (n - 1) := by
    rw [show n = (n - 1) + 1 by omega, Nat.pow_succ]; simp; omega
  have c : ((2 ^ (n - 1) : Nat) : Int) = (2 : Int) ^ (n - 1) := by simp
  rw [p]
  generalize (2 : Int) ^ (n - 1) = M at *
  generalize (2 : Nat) ^ (n - 1) = N at *
  subst c
  exact Int.bmod_eq_of_le (by omega) (by omega)

theorem toInt_lo12 (x : Int) : (BitVec.ofInt 12 x).toInt = lo12 x := by
  rw [BitVec.toInt_ofInt]
  unfold lo12 Int.bmod
  simp only [show (2 : Nat) ^ 12 = 4096 from rfl]
  split <;> omega

theorem bits_I (w : BitVec 32) (x : Int) :
    ((writeI w x).extractLsb' 20 12) = (BitVec.ofInt 32 x).setWidth 12 := by

  unfold writeI
  generalize BitVec.ofInt 32 x = v 
  apply BitVec.eq_of_getLsbD_eq
  intro i hi
  have h : i = 0 ∨ i = 1 ∨ i = 2 ∨ i = 3 ∨ i = 4 ∨ i = 5 ∨ i = 6 ∨ i = 7 ∨ i = 8 ∨ i = 9 ∨ i = 10 ∨ i = 11 := by omega
  rcases h with rfl | rfl | rfl | rfl | rfl | rfl | rfl | rfl | rfl | rfl | rfl | rfl <;>
    simp only [BitVec.getLsbD_setWidth, BitVec.getLsbD_append, BitVec.getLsbD_extractLsb', BitVec.getLsbD_or, BitVec.getLsbD_and, BitVec.getLsbD_shiftLeft, BitVec.getLsbD_ushiftRight, BitVec.getLsbD_not] <;> simp

theorem bits_S (w : BitVec 32) (x : Int) :
    ((writeS w x).extractLsb' 25 7 ++ (writeS w x).extractLsb' 7 5).setWidth 12 = (BitVec.ofInt 32 x).setWidth 12 := by

  unfold writeS
  generalize BitVec.ofInt 32 x = v 
  apply BitVec.eq_of_getLsbD_eq
  intro i hi
  have h : i = 0 ∨ i = 1 ∨ i = 2 ∨ i = 3 ∨ i = 4 ∨ i = 5 ∨ i = 6 ∨ i = 7 ∨ i = 8 ∨ i = 9 ∨ i = 10 ∨ i = 11 := by omega
  rcases h with rfl | rfl | rfl | rfl | rfl | rfl | rfl | rfl | rfl | rfl | rfl | rfl <;>
    simp only [BitVec.getLsbD_setWidth, BitVec.getLsbD_append, BitVec.getLsbD_extractLsb', BitVec.getLsbD_or, BitVec.getLsbD_and, BitVec.getLsbD_shiftLeft, BitVec.getLsbD_ushiftRight, BitVec.getLsbD_not] <;> simp

theorem bits_B (w : BitVec 32) (x : Int) (h0 : x % 2 = 0) :
    ((writeB w x).extractLsb' 31 1 ++ (writeB w x).extractLsb' 7 1 ++ (writeB w x).extractLsb' 25 6 ++ (writeB w x).extractLsb' 8 4 ++ 0#1).setWidth 13 = (BitVec.ofInt 32 x).setWidth 13 := by
  have h1 := ofInt_even (n := 32) (by omega) h0
  unfold writeB
  generalize BitVec.ofInt 32 x = v at h1
  apply BitVec.eq_of_getLsbD_eq
  intro i hi
  have h : i = 0 ∨ i = 1 ∨ i = 2 ∨ i = 3 ∨ i = 4 ∨ i = 5 ∨ i = 6 ∨ i = 7 ∨ i = 8 ∨ i = 9 ∨ i = 10 ∨ i = 11 ∨ i = 12 := by omega
  rcases h with rfl | rfl | rfl | rfl | rfl | rfl | rfl | rfl | rfl | rfl | rfl | rfl | rfl <;>
    simp only [BitVec.getLsbD_setWidth, BitVec.getLsbD_append, BitVec.getLsbD_extractLsb', BitVec.getLsbD_or, BitVec.getLsbD_and, BitVec.getLsbD_shiftLeft, BitVec.getLsbD_ushiftRight, BitVec.getLsbD_not, h1] <;> simp

theorem bits_J (w : BitVec 32) (x : Int) (h0 : x % 2 = 0) :
    ((writeJ w x).extractLsb' 31 1 ++ (writeJ w x).extractLsb' 12 8 ++ (writeJ w x).extractLsb' 20 1 ++ (writeJ w x).extractLsb' 21 10 ++ 0#1).setWidth 21 = (BitVec.ofInt 32 x).setWidth 21 := by
  have h1 := ofInt_even (n := 32) (by omega) h0
  unfold writeJ
  generalize BitVec.ofInt 32 x = v at h1
  apply BitVec.eq_of_getLsbD_eq
  intro i hi
  have h : i = 0 ∨ i = 1 ∨ i = 2 ∨ i = 3 ∨ i = 4 ∨ i = 5 ∨ i = 6 ∨ i = 7 ∨ i = 8 ∨ i = 9 ∨ i = 10 ∨ i = 11 ∨ i = 12 ∨ i = 13 ∨ i = 14 ∨ i = 15 ∨ i = 16 ∨ i = 17 ∨ i = 18 ∨ i = 19 ∨ i = 20 := by omega
  rcases h with rfl | rfl | rfl | rfl | rfl | rfl | rfl | rfl | rfl | rfl | rfl | rfl | rfl | rfl | rfl | rfl | rfl | rfl | rfl | rfl | rfl <;>
    simp only [BitVec.getLsbD_setWidth, BitVec.getLsbD_append, BitVec.getLsbD_extractLsb', BitVec.getLsbD_or, BitVec.getLsbD_and, BitVec.getLsbD_shiftLeft, BitVec.getLsbD_ushiftRight, BitVec.getLsbD_not, h1] <;> simp

theorem bits_CB (w : BitVec 16) (x : Int) (h0 : x % 2 = 0) :
    ((writeCB w x).extractLsb' 12 1 ++ (writeCB w x).extractLsb' 5 2 ++ (writeCB w x).extractLsb' 2 1 ++ (writeCB w x).extractLsb' 10 2 ++ (writeCB w x).extractLsb' 3 2 ++ 0#1).setWidth 9 = (BitVec.ofInt 16 x).setWidth 9 := by
  have h1 := ofInt_even (n := 16) (by omega) h0
  unfold writeCB
  generalize BitVec.ofInt 16 x = v at h1
  apply BitVec.eq_of_getLsbD_eq
  intro i hi
  have h : i = 0 ∨ i = 1 ∨ i = 2 ∨ i = 3 ∨ i = 4 ∨ i = 5 ∨ i = 6 ∨ i = 7 ∨ i = 8 := by omega
  rcases h with rfl | rfl | rfl | rfl | rfl | rfl | rfl | rfl | rfl <;>
    simp only [BitVec.getLsbD_setWidth, BitVec.getLsbD_append, BitVec.getLsbD_extractLsb', BitVec.getLsbD_or, BitVec.getLsbD_and, BitVec.getLsbD_shiftLeft, BitVec.getLsbD_ushiftRight, BitVec.getLsbD_not, h1] <;> simp

theorem bits_CJ (w : BitVec 16) (x : Int) (h0 : x % 2 = 0) :
    ((writeCJ w x).extractLsb' 12 1 ++ (writeCJ w x).extractLsb' 8 1 ++ (writeCJ w x).extractLsb' 9 2 ++ (writeCJ w x).extractLsb' 6 1 ++ (writeCJ w x).extractLsb' 7 1 ++ (writeCJ w x).extractLsb' 2 1 ++
    (writeCJ w x).extractLsb' 11 1 ++ (writeCJ w x).extractLsb' 3 3 ++ 0#1).setWidth 12 = (BitVec.ofInt 16 x).setWidth 12 := by
  have h1 := ofInt_even (n := 16) (by omega) h0
  unfold writeCJ
  generalize BitVec.ofInt 16 x = v at h1
  apply BitVec.eq_of_getLsbD_eq
  intro i hi
  have h : i = 0 ∨ i = 1 ∨ i = 2 ∨ i = 3 ∨ i = 4 ∨ i = 5 ∨ i = 6 ∨ i = 7 ∨ i = 8 ∨ i = 9 ∨ i = 10 ∨ i = 11 := by omega
  rcases h with rfl | rfl | rfl | rfl | rfl | rfl | rfl | rfl | rfl | rfl | rfl | rfl <;>
    simp only [BitVec.getLsbD_setWidth, BitVec.getLsbD_append, BitVec.getLsbD_extractLsb', BitVec.getLsbD_or, BitVec.getLsbD_and, BitVec.getLsbD_shiftLeft, BitVec.getLsbD_ushiftRight, BitVec.getLsbD_not, h1] <;> simp

theorem keep_U (w : BitVec 32) (x : Int) : (writeU w x).extractLsb' 0 12 = w.extractLsb' 0 12 := by
  unfold writeU
  generalize BitVec.ofInt 32 x = v
  apply BitVec.eq_of_getLsbD_eq
  intro i hi
  have h : i = 0 ∨ i = 1 ∨ i = 2 ∨ i = 3 ∨ i = 4 ∨ i = 5 ∨ i = 6 ∨ i = 7 ∨ i = 8 ∨ i = 9 ∨ i = 10 ∨ i = 11 := by omega
  rcases h with rfl | rfl | rfl | rfl | rfl | rfl | rfl | rfl | rfl | rfl | rfl | rfl <;>
    simp only [BitVec.getLsbD_setWidth, BitVec.getLsbD_append, BitVec.getLsbD_extractLsb', BitVec.getLsbD_or, BitVec.getLsbD_and, BitVec.getLsbD_shiftLeft, BitVec.getLsbD_ushiftRight, BitVec.getLsbD_not] <;> simp

theorem keep_I (w : BitVec 32) (x : Int) : (writeI w x).extractLsb' 0 20 = w.extractLsb' 0 20 := by
  unfold writeI
  generalize BitVec.ofInt 32 x = v
  apply BitVec.eq_of_getLsbD_eq
  intro i hi
  have h : i = 0 ∨ i = 1 ∨ i = 2 ∨ i = 3 ∨ i = 4 ∨ i = 5 ∨ i = 6 ∨ i = 7 ∨ i = 8 ∨ i = 9 ∨ i = 10 ∨ i = 11 ∨ i = 12 ∨ i = 13 ∨ i = 14 ∨ i = 15 ∨ i = 16 ∨ i = 17 ∨ i = 18 ∨ i = 19 := by omega
  rcases h with rfl | rfl | rfl | rfl | rfl | rfl | rfl | rfl | rfl | rfl | rfl | rfl | rfl | rfl | rfl | rfl | rfl | rfl | rfl | rfl <;>
    simp only [BitVec.getLsbD_setWidth, BitVec.getLsbD_append, BitVec.getLsbD_extractLsb', BitVec.getLsbD_or, BitVec.getLsbD_and, BitVec.getLsbD_shiftLeft, BitVec.getLsbD_ushiftRight, BitVec.getLsbD_not] <;> simp

theorem keep_J (w : BitVec 32) (x : Int) : (writeJ w x).extractLsb' 0 12 = w.extractLsb' 0 12 := by
  unfold writeJ
  generalize BitVec.ofInt 32 x = v
  apply BitVec.eq_of_getLsbD_eq
  intro i hi
  have h : i = 0 ∨ i = 1 ∨ i = 2 ∨ i = 3 ∨ i = 4 ∨ i = 5 ∨ i = 6 ∨ i = 7 ∨ i = 8 ∨ i = 9 ∨ i = 10 ∨ i = 11 := by omega
  rcases h with rfl | rfl | rfl | rfl | rfl | rfl | rfl | rfl | rfl | rfl | rfl | rfl <;>
    simp only [BitVec.getLsbD_setWidth, BitVec.getLsbD_append, BitVec.getLsbD_extractLsb', BitVec.getLsbD_or, BitVec.getLsbD_and, BitVec.getLsbD_shiftLeft, BitVec.getLsbD_ushiftRight, BitVec.getLsbD_not] <;> simp

theorem keep_S (w : BitVec 32) (x : Int) : (writeS w x).extractLsb' 0 7 = w.extractLsb' 0 7 := by
  unfold writeS
  generalize BitVec.ofInt 32 x = v
  apply BitVec.eq_of_getLsbD_eq
  intro i hi
  have h : i = 0 ∨ i = 1 ∨ i = 2 ∨ i = 3 ∨ i = 4 ∨ i = 5 ∨ i = 6 := by omega
  rcases h with rfl | rfl | rfl | rfl | rfl | rfl | rfl <;>
    simp only [BitVec.getLsbD_setWidth, BitVec.getLsbD_append, BitVec.getLsbD_extractLsb', BitVec.getLsbD_or, BitVec.getLsbD_and, BitVec.getLsbD_shiftLeft, BitVec.getLsbD_ushiftRight, BitVec.getLsbD_not] <;> simp

theorem keep_S2 (w : BitVec 32) (x : Int) : (writeS w x).extractLsb' 12 13 = w.extractLsb' 12 13 := by
  unfold writeS
  generalize BitVec.ofInt 32 x = v
  apply BitVec.eq_of_getLsbD_eq
  intro i hi
  have h : i = 0 ∨ i = 1 ∨ i = 2 ∨ i = 3 ∨ i = 4 ∨ i = 5 ∨ i = 6 ∨ i = 7 ∨ i = 8 ∨ i = 9 ∨ i = 10 ∨ i = 11 ∨ i = 12 := by omega
  rcases h with rfl | rfl | rfl | rfl | rfl | rfl | rfl | rfl | rfl | rfl | rfl | rfl | rfl <;>
    simp only [BitVec.getLsbD_setWidth, BitVec.getLsbD_append, BitVec.getLsbD_extractLsb', BitVec.getLsbD_or, BitVec.getLsbD_and, BitVec.getLsbD_shiftLeft, BitVec.getLsbD_ushiftRight, BitVec.getLsbD_not] <;> simp

theorem keep_B (w : BitVec 32) (x : Int) : (writeB w x).extractLsb' 0 7 = w.extractLsb' 0 7 := by
  unfold writeB
  generalize BitVec.ofInt 32 x = v
  apply BitVec.eq_of_getLsbD_eq
  intro i hi
  have h : i = 0 ∨ i = 1 ∨ i = 2 ∨ i = 3 ∨ i = 4 ∨ i = 5 ∨ i = 6 := by omega
  rcases h with rfl | rfl | rfl | rfl | rfl | rfl | rfl <;>
    simp only [BitVec.getLsbD_setWidth, BitVec.getLsbD_append, BitVec.getLsbD_extractLsb', BitVec.getLsbD_or, BitVec.getLsbD_and, BitVec.getLsbD_shiftLeft, BitVec.getLsbD_ushiftRight, BitVec.getLsbD_not] <;> simp

theorem keep_B2 (w : BitVec 32) (x : Int) : (writeB w x).extractLsb' 12 13 = w.extractLsb' 12 13 := by
  unfold writeB
  generalize BitVec.ofInt 32 x = v
  apply BitVec.eq_of_getLsbD_eq
  intro i hi
  have h : i = 0 ∨ i = 1 ∨ i = 2 ∨ i = 3 ∨ i = 4 ∨ i = 5 ∨ i = 6 ∨ i = 7 ∨ i = 8 ∨ i = 9 ∨ i = 10 ∨ i = 11 ∨ i = 12 := by omega
  rcases h with rfl | rfl | rfl | rfl | rfl | rfl | rfl | rfl | rfl | rfl | rfl | rfl | rfl <;>
    simp only [BitVec.getLsbD_setWidth, BitVec.getLsbD_append, BitVec.getLsbD_extractLsb', BitVec.getLsbD_or, BitVec.getLsbD_and, BitVec.getLsbD_shiftLeft, BitVec.getLsbD_ushiftRight, BitVec.getLsbD_not] <;> simp

theorem keep_CB (w : BitVec 16) (x : Int) : (writeCB w x).extractLsb' 0 2 = w.extractLsb' 0 2 := by
  unfold writeCB
  generalize BitVec.ofInt 16 x = v
  apply BitVec.eq_of_getLsbD_eq
  intro i hi
  have h : i = 0 ∨ i = 1 := by omega
  rcases h with rfl | rfl <;>
    simp only [BitVec.getLsbD_setWidth, BitVec.getLsbD_append, BitVec.getLsbD_extractLsb', BitVec.getLsbD_or, BitVec.getLsbD_and, BitVec.getLsbD_shiftLeft, BitVec.getLsbD_ushiftRight, BitVec.getLsbD_not] <;> simp

theorem keep_CB2 (w : BitVec 16) (x : Int) : (writeCB w x).extractLsb' 7 3 = w.extractLsb' 7 3 := by
  unfold writeCB
  generalize BitVec.ofInt 16 x = v
  apply BitVec.eq_of_getLsbD_eq
  intro i hi
  have h : i = 0 ∨ i = 1 ∨ i = 2 := by omega
  rcases h with rfl | rfl | rfl <;>
    simp only [BitVec.getLsbD_setWidth, BitVec.getLsbD_append, BitVec.getLsbD_extractLsb', BitVec.getLsbD_or, BitVec.getLsbD_and, BitVec.getLsbD_shiftLeft, BitVec.getLsbD_ushiftRight, BitVec.getLsbD_not] <;> simp

theorem keep_CB3 (w : BitVec 16) (x : Int) : (writeCB w x).extractLsb' 13 3 = w.extractLsb' 13 3 := by
  unfold writeCB
  generalize BitVec.ofInt 16 x = v
  apply BitVec.eq_of_getLsbD_eq
  intro i hi
  have h : i = 0 ∨ i = 1 ∨ i = 2 := by omega
  rcases h with rfl | rfl | rfl <;>
    simp only [BitVec.getLsbD_setWidth, BitVec.getLsbD_append, BitVec.getLsbD_extractLsb', BitVec.getLsbD_or, BitVec.getLsbD_and, BitVec.getLsbD_shiftLeft, BitVec.getLsbD_ushiftRight, BitVec.getLsbD_not] <;> simp

theorem keep_CJ (w : BitVec 16) (x : Int) : (writeCJ w x).extractLsb' 0 2 = w.extractLsb' 0 2 := by
  unfold writeCJ
  generalize BitVec.ofInt 16 x = v
  apply BitVec.eq_of_getLsbD_eq
  intro i hi
  have h : i = 0 ∨ i = 1 := by omega
  rcases h with rfl | rfl <;>
    simp only [BitVec.getLsbD_setWidth, BitVec.getLsbD_append, BitVec.getLsbD_extractLsb', BitVec.getLsbD_or, BitVec.getLsbD_and, BitVec.getLsbD_shiftLeft, BitVec.getLsbD_ushiftRight, BitVec.getLsbD_not] <;> simp

theorem keep_CJ2 (w : BitVec 16) (x : Int) : (writeCJ w x).extractLsb' 13 3 = w.extractLsb' 13 3 := by
  unfold writeCJ
  generalize BitVec.ofInt 16 x = v
  apply BitVec.eq_of_getLsbD_eq
  intro i hi
  have h : i = 0 ∨ i = 1 ∨ i = 2 := by omega
  rcases h with rfl | rfl | rfl <;>
    simp only [BitVec.getLsbD_setWidth, BitVec.getLsbD_append, BitVec.getLsbD_extractLsb', BitVec.getLsbD_or, BitVec.getLsbD_and, BitVec.getLsbD_shiftLeft, BitVec.getLsbD_ushiftRight, BitVec.getLsbD_not] <;> simp

theorem immI_writeI (w : BitVec 32) (x : Int) : immI (writeI w x) = lo12 x := by
  unfold immI
  rw [bits_I, ofInt_setWidth (by omega), toInt_lo12]

theorem immS_writeS (w : BitVec 32) (x : Int) : immS (writeS w x) = lo12 x := by
  unfold immS
  rw [bits_S, ofInt_setWidth (by omega), toInt_lo12]

theorem immB_writeB (w : BitVec 32) {x : Int} (h0 : x % 2 = 0) (h1 : -2 ^ 12 ≤ x) (h2 : x < 2 ^ 12) : immB (writeB w x) = x := by
  unfold immB
  rw [bits_B w x h0, ofInt_setWidth (by omega), toInt_ofInt_fits (by omega) h1 h2]

theorem immJ_writeJ (w : BitVec 32) {x : Int} (h0 : x % 2 = 0) (h1 : -2 ^ 20 ≤ x) (h2 : x < 2 ^ 20) : immJ (writeJ w x) = x := by
  unfold immJ
  rw [bits_J w x h0, ofInt_setWidth (by omega), toInt_ofInt_fits (by omega) h1 h2]

theorem immCB_writeCB (w : BitVec 16) {x : Int} (h0 : x % 2 = 0) (h1 : -2 ^ 8 ≤ x) (h2 : x < 2 ^ 8) : immCB (writeCB w x) = x := by
  unfold immCB
  rw [bits_CB w x h0, ofInt_setWidth (by omega), toInt_ofInt_fits (by omega) h1 h2]

theorem immCJ_writeCJ (w : BitVec 16) {x : Int} (h0 : x % 2 = 0) (h1 : -2 ^ 11 ≤ x) (h2 : x < 2 ^ 11) : immCJ (writeCJ w x) = x := by
  unfold immCJ
  rw [bits_CJ w x h0, ofInt_setWidth (by omega), toInt_ofInt_fits (by omega) h1 h2]

theorem bits_U (w : BitVec 32) (x : Int) :
    (((writeU w x).extractLsb' 12 20 ++ 0#12).setWidth 32) = BitVec.ofInt 32 (x - lo12 x) := by
  have e : ((writeU w x).extractLsb' 12 20 ++ 0#12).setWidth 32 = ((BitVec.ofInt 32 x + 0x800#32).extractLsb' 12 20 ++ 0#12).setWidth 32 := by
    unfold writeU
    generalize BitVec.ofInt 32 x + 0x800#32 = v
    apply BitVec.eq_of_getLsbD_eq
    intro i hi
    have h : i = 0 ∨ i = 1 ∨ i = 2 ∨ i = 3 ∨ i = 4 ∨ i = 5 ∨ i = 6 ∨ i = 7 ∨ i = 8 ∨ i = 9 ∨ i = 10 ∨ i = 11 ∨ i = 12 ∨ i = 13 ∨ i = 14 ∨ i = 15 ∨ i = 16 ∨ i = 17 ∨ i = 18 ∨ i = 19 ∨ i = 20 ∨ i = 21 ∨ i = 22 ∨ i = 23 ∨ i = 24 ∨ i = 25 ∨ i = 26 ∨ i = 27 ∨ i = 28 ∨ i = 29 ∨ i = 30 ∨ i = 31 := by omega
    rcases h with rfl | rfl | rfl | rfl | rfl | rfl | rfl | rfl | rfl | rfl | rfl | rfl | rfl | rfl | rfl | rfl | rfl | rfl | rfl | rfl | rfl | rfl | rfl | rfl | rfl | rfl | rfl | rfl | rfl | rfl | rfl | rfl <;>
      simp only [BitVec.getLsbD_setWidth, BitVec.getLsbD_append, BitVec.getLsbD_extractLsb', BitVec.getLsbD_or, BitVec.getLsbD_and, BitVec.getLsbD_shiftLeft, BitVec.getLsbD_ushiftRight, BitVec.getLsbD_not] <;> simp
  rw [e]
  apply BitVec.eq_of_toNat_eq
  have a := toNat_ofInt_emod 32 x
  have b := toNat_ofInt_emod 32 (x - lo12 x)
  rw [BitVec.toNat_setWidth, BitVec.toNat_append, BitVec.extractLsb'_toNat, BitVec.toNat_add, Nat.shiftLeft_eq, Nat.shiftRight_eq_div_pow]
  simp only [BitVec.toNat_ofNat, Nat.zero_mod, Nat.or_zero]
  unfold lo12 at b ⊢
  omega

theorem immU_writeU (w : BitVec 32) {x : Int} (h1 : -2 ^ 31 - 2048 ≤ x) (h2 : x < 2 ^ 31 - 2048) :
    immU (writeU w x) = x - lo12 x := by
  unfold immU
  rw [bits_U]
  refine toInt_ofInt_fits (by omega) ?_ ?_ <;> unfold lo12 <;> omega

end Nature.Reloc.Rv
