import Verif.Riscv.Fields
/-! The 16-bit instructions: every register and number that fits is checked by the kernel. -/
namespace Nature.Riscv

theorem reads_short {h : Nat} {i : Insn} {t : List Nat} {is : List (Insn × Nat)}
    (hd : decode1 (c16 h) = some (i, 2)) (ht : Reads t is) : Reads (c16 h ++ t) ((i, 2) :: is) := by
  refine Reads.cons ?_ (by simpa [c16] using ht)
  simp only [c16, List.cons_append, List.nil_append, decode1] at hd ⊢
  split at hd
  · rename_i h3
    rw [if_pos h3]
    exact hd
  · split at hd
    · cases hd
    · cases hd

theorem cMV_all : ∀ d : Fin 32, ∀ s : Fin 32, s.val ≠ 0 → decode1 (cMV d s) = some (.r .add d.val 0 s.val, 2) := by
  decide +kernel

theorem cMV_reads {d s : Nat} (hd : d < 32) (hs : s < 32) (hs0 : s ≠ 0) {t : List Nat} {is : List (Insn × Nat)} (ht : Reads t is) :
    Reads (cMV d s ++ t) ((.r .add d 0 s, 2) :: is) :=
  reads_short (cMV_all ⟨d, hd⟩ ⟨s, hs⟩ hs0) ht

theorem cADD_all : ∀ d : Fin 32, ∀ s : Fin 32, s.val ≠ 0 → decode1 (cADD d s) = some (.r .add d.val d.val s.val, 2) := by
  decide +kernel

theorem cADD_reads {d s : Nat} (hd : d < 32) (hs : s < 32) (hs0 : s ≠ 0) {t : List Nat} {is : List (Insn × Nat)} (ht : Reads t is) :
    Reads (cADD d s ++ t) ((.r .add d d s, 2) :: is) :=
  reads_short (cADD_all ⟨d, hd⟩ ⟨s, hs⟩ hs0) ht

theorem cADDW_all : ∀ d : Fin 8, ∀ s : Fin 8, decode1 (cADDW (8 + d) (8 + s)) = some (.r .addw (8 + d.val) (8 + d.val) (8 + s.val), 2) := by
  decide +kernel

theorem cADDW_reads {d s : Nat} (hd : rvc d = true) (hs : rvc s = true) {t : List Nat} {is : List (Insn × Nat)} (ht : Reads t is) :
    Reads (cADDW d s ++ t) ((.r .addw d d s, 2) :: is) := by
  simp only [rvc, decide_eq_true_eq] at hd hs
  obtain ⟨x, rfl⟩ := Nat.exists_eq_add_of_le hd.1
  obtain ⟨y, rfl⟩ := Nat.exists_eq_add_of_le hs.1
  exact reads_short (cADDW_all ⟨x, by omega⟩ ⟨y, by omega⟩) ht

theorem cSUB_all : ∀ d : Fin 8, ∀ s : Fin 8, decode1 (cSUB (8 + d) (8 + s)) = some (.r .sub (8 + d.val) (8 + d.val) (8 + s.val), 2) := by
  decide +kernel

theorem cSUB_reads {d s : Nat} (hd : rvc d = true) (hs : rvc s = true) {t : List Nat} {is : List (Insn × Nat)} (ht : Reads t is) :
    Reads (cSUB d s ++ t) ((.r .sub d d s, 2) :: is) := by
  simp only [rvc, decide_eq_true_eq] at hd hs
  obtain ⟨x, rfl⟩ := Nat.exists_eq_add_of_le hd.1
  obtain ⟨y, rfl⟩ := Nat.exists_eq_add_of_le hs.1
  exact reads_short (cSUB_all ⟨x, by omega⟩ ⟨y, by omega⟩) ht

theorem cSUBW_all : ∀ d : Fin 8, ∀ s : Fin 8, decode1 (cSUBW (8 + d) (8 + s)) = some (.r .subw (8 + d.val) (8 + d.val) (8 + s.val), 2) := by
  decide +kernel

theorem cSUBW_reads {d s : Nat} (hd : rvc d = true) (hs : rvc s = true) {t : List Nat} {is : List (Insn × Nat)} (ht : Reads t is) :
    Reads (cSUBW d s ++ t) ((.r .subw d d s, 2) :: is) := by
  simp only [rvc, decide_eq_true_eq] at hd hs
  obtain ⟨x, rfl⟩ := Nat.exists_eq_add_of_le hd.1
  obtain ⟨y, rfl⟩ := Nat.exists_eq_add_of_le hs.1
  exact reads_short (cSUBW_all ⟨x, by omega⟩ ⟨y, by omega⟩) ht

theorem cAND_all : ∀ d : Fin 8, ∀ s : Fin 8, decode1 (cAND (8 + d) (8 + s)) = some (.r .and (8 + d.val) (8 + d.val) (8 + s.val), 2) := by
  decide +kernel

theorem cAND_reads {d s : Nat} (hd : rvc d = true) (hs : rvc s = true) {t : List Nat} {is : List (Insn × Nat)} (ht : Reads t is) :
    Reads (cAND d s ++ t) ((.r .and d d s, 2) :: is) := by
  simp only [rvc, decide_eq_true_eq] at hd hs
  obtain ⟨x, rfl⟩ := Nat.exists_eq_add_of_le hd.1
  obtain ⟨y, rfl⟩ := Nat.exists_eq_add_of_le hs.1
  exact reads_short (cAND_all ⟨x, by omega⟩ ⟨y, by omega⟩) ht

theorem cOR_all : ∀ d : Fin 8, ∀ s : Fin 8, decode1 (cOR (8 + d) (8 + s)) = some (.r .or (8 + d.val) (8 + d.val) (8 + s.val), 2) := by
  decide +kernel

theorem cOR_reads {d s : Nat} (hd : rvc d = true) (hs : rvc s = true) {t : List Nat} {is : List (Insn × Nat)} (ht : Reads t is) :
    Reads (cOR d s ++ t) ((.r .or d d s, 2) :: is) := by
  simp only [rvc, decide_eq_true_eq] at hd hs
  obtain ⟨x, rfl⟩ := Nat.exists_eq_add_of_le hd.1
  obtain ⟨y, rfl⟩ := Nat.exists_eq_add_of_le hs.1
  exact reads_short (cOR_all ⟨x, by omega⟩ ⟨y, by omega⟩) ht

theorem cXOR_all : ∀ d : Fin 8, ∀ s : Fin 8, decode1 (cXOR (8 + d) (8 + s)) = some (.r .xor (8 + d.val) (8 + d.val) (8 + s.val), 2) := by
  decide +kernel

theorem cXOR_reads {d s : Nat} (hd : rvc d = true) (hs : rvc s = true) {t : List Nat} {is : List (Insn × Nat)} (ht : Reads t is) :
    Reads (cXOR d s ++ t) ((.r .xor d d s, 2) :: is) := by
  simp only [rvc, decide_eq_true_eq] at hd hs
  obtain ⟨x, rfl⟩ := Nat.exists_eq_add_of_le hd.1
  obtain ⟨y, rfl⟩ := Nat.exists_eq_add_of_le hs.1
  exact reads_short (cXOR_all ⟨x, by omega⟩ ⟨y, by omega⟩) ht

theorem cLI_all : ∀ d : Fin 32, ∀ k : Fin 64, decode1 (cLI d ((k.val : Int) + (-32))) = some (.i .addi d.val 0 ((k.val : Int) + (-32)), 2) := by
  decide +kernel

theorem cLI_reads {d : Nat} {v : Int} (hd : d < 32) (h1 : -32 ≤ v) (h2 : v < 32) {t : List Nat} {is : List (Insn × Nat)}
    (ht : Reads t is) : Reads (cLI d v ++ t) ((.i .addi d 0 v, 2) :: is) := by
  obtain ⟨k, rfl⟩ : ∃ k : Nat, v = (k : Int) + (-32) := ⟨(v - (-32)).toNat, by omega⟩
  exact reads_short (cLI_all ⟨d, hd⟩ ⟨k, by omega⟩) ht

theorem cADDI_all : ∀ d : Fin 32, ∀ k : Fin 64, decode1 (cADDI d ((k.val : Int) + (-32))) = some (.i .addi d.val d.val ((k.val : Int) + (-32)), 2) := by
  decide +kernel

theorem cADDI_reads {d : Nat} {v : Int} (hd : d < 32) (h1 : -32 ≤ v) (h2 : v < 32) {t : List Nat} {is : List (Insn × Nat)}
    (ht : Reads t is) : Reads (cADDI d v ++ t) ((.i .addi d d v, 2) :: is) := by
  obtain ⟨k, rfl⟩ : ∃ k : Nat, v = (k : Int) + (-32) := ⟨(v - (-32)).toNat, by omega⟩
  exact reads_short (cADDI_all ⟨d, hd⟩ ⟨k, by omega⟩) ht

theorem cADDIW_all : ∀ d : Fin 32, ∀ k : Fin 64, d.val ≠ 0 → decode1 (cADDIW d ((k.val : Int) + (-32))) = some (.i .addiw d.val d.val ((k.val : Int) + (-32)), 2) := by
  decide +kernel

theorem cADDIW_reads {d : Nat} {v : Int} (hd : d < 32) (h1 : -32 ≤ v) (h2 : v < 32) (h0 : d ≠ 0) {t : List Nat} {is : List (Insn × Nat)}
    (ht : Reads t is) : Reads (cADDIW d v ++ t) ((.i .addiw d d v, 2) :: is) := by
  obtain ⟨k, rfl⟩ : ∃ k : Nat, v = (k : Int) + (-32) := ⟨(v - (-32)).toNat, by omega⟩
  exact reads_short (cADDIW_all ⟨d, hd⟩ ⟨k, by omega⟩ h0) ht

theorem cSLLI_all : ∀ d : Fin 32, ∀ k : Fin 64, decode1 (cSLLI d ((k.val : Int) + (0))) = some (.i .slli d.val d.val ((k.val : Int) + (0)), 2) := by
  decide +kernel

theorem cSLLI_reads {d : Nat} {v : Int} (hd : d < 32) (h1 : 0 ≤ v) (h2 : v < 64) {t : List Nat} {is : List (Insn × Nat)}
    (ht : Reads t is) : Reads (cSLLI d v ++ t) ((.i .slli d d v, 2) :: is) := by
  obtain ⟨k, rfl⟩ : ∃ k : Nat, v = (k : Int) + (0) := ⟨(v - (0)).toNat, by omega⟩
  exact reads_short (cSLLI_all ⟨d, hd⟩ ⟨k, by omega⟩) ht

theorem cANDI_all : ∀ d : Fin 8, ∀ k : Fin 64, decode1 (cANDI (8 + d) ((k.val : Int) + (-32))) = some (.i .andi (8 + d.val) (8 + d.val) ((k.val : Int) + (-32)), 2) := by
  decide +kernel

theorem cANDI_reads {d : Nat} {v : Int} (hd : rvc d = true) (h1 : -32 ≤ v) (h2 : v < 32) {t : List Nat} {is : List (Insn × Nat)}
    (ht : Reads t is) : Reads (cANDI d v ++ t) ((.i .andi d d v, 2) :: is) := by
  simp only [rvc, decide_eq_true_eq] at hd
  obtain ⟨x, rfl⟩ := Nat.exists_eq_add_of_le hd.1
  obtain ⟨k, rfl⟩ : ∃ k : Nat, v = (k : Int) + (-32) := ⟨(v - (-32)).toNat, by omega⟩
  exact reads_short (cANDI_all ⟨x, by omega⟩ ⟨k, by omega⟩) ht

theorem cSRLI_all : ∀ d : Fin 8, ∀ k : Fin 64, decode1 (cSRLI (8 + d) ((k.val : Int) + (0))) = some (.i .srli (8 + d.val) (8 + d.val) ((k.val : Int) + (0)), 2) := by
  decide +kernel

theorem cSRLI_reads {d : Nat} {v : Int} (hd : rvc d = true) (h1 : 0 ≤ v) (h2 : v < 64) {t : List Nat} {is : List (Insn × Nat)}
    (ht : Reads t is) : Reads (cSRLI d v ++ t) ((.i .srli d d v, 2) :: is) := by
  simp only [rvc, decide_eq_true_eq] at hd
  obtain ⟨x, rfl⟩ := Nat.exists_eq_add_of_le hd.1
  obtain ⟨k, rfl⟩ : ∃ k : Nat, v = (k : Int) + (0) := ⟨(v - (0)).toNat, by omega⟩
  exact reads_short (cSRLI_all ⟨x, by omega⟩ ⟨k, by omega⟩) ht

theorem cSRAI_all : ∀ d : Fin 8, ∀ k : Fin 64, decode1 (cSRAI (8 + d) ((k.val : Int) + (0))) = some (.i .srai (8 + d.val) (8 + d.val) ((k.val : Int) + (0)), 2) := by
  decide +kernel

theorem cSRAI_reads {d : Nat} {v : Int} (hd : rvc d = true) (h1 : 0 ≤ v) (h2 : v < 64) {t : List Nat} {is : List (Insn × Nat)}
    (ht : Reads t is) : Reads (cSRAI d v ++ t) ((.i .srai d d v, 2) :: is) := by
  simp only [rvc, decide_eq_true_eq] at hd
  obtain ⟨x, rfl⟩ := Nat.exists_eq_add_of_le hd.1
  obtain ⟨k, rfl⟩ : ∃ k : Nat, v = (k : Int) + (0) := ⟨(v - (0)).toNat, by omega⟩
  exact reads_short (cSRAI_all ⟨x, by omega⟩ ⟨k, by omega⟩) ht

theorem cLW_all : ∀ d : Fin 8, ∀ a : Fin 8, ∀ k : Fin 32, decode1 (cLW (8 + d) ((k.val : Int) * 4) (8 + a)) = some (.load .lw (8 + d.val) (8 + a.val) ((k.val : Int) * 4), 2) := by
  decide +kernel

theorem cLW_reads {d a : Nat} {v : Int} (hd : rvc d = true) (ha : rvc a = true) (h1 : 0 ≤ v) (h2 : v < 128) (h3 : v % 4 = 0)
    {t : List Nat} {is : List (Insn × Nat)} (ht : Reads t is) :
    Reads (cLW d v a ++ t) ((.load .lw d a v, 2) :: is) := by
  simp only [rvc, decide_eq_true_eq] at hd ha
  obtain ⟨x, rfl⟩ := Nat.exists_eq_add_of_le hd.1
  obtain ⟨y, rfl⟩ := Nat.exists_eq_add_of_le ha.1
  obtain ⟨k, rfl⟩ : ∃ k : Nat, v = (k : Int) * 4 := ⟨(v / 4).toNat, by omega⟩
  exact reads_short (cLW_all ⟨x, by omega⟩ ⟨y, by omega⟩ ⟨k, by omega⟩) ht

theorem cLD_all : ∀ d : Fin 8, ∀ a : Fin 8, ∀ k : Fin 32, decode1 (cLD (8 + d) ((k.val : Int) * 8) (8 + a)) = some (.load .ld (8 + d.val) (8 + a.val) ((k.val : Int) * 8), 2) := by
  decide +kernel

theorem cLD_reads {d a : Nat} {v : Int} (hd : rvc d = true) (ha : rvc a = true) (h1 : 0 ≤ v) (h2 : v < 256) (h3 : v % 8 = 0)
    {t : List Nat} {is : List (Insn × Nat)} (ht : Reads t is) :
    Reads (cLD d v a ++ t) ((.load .ld d a v, 2) :: is) := by
  simp only [rvc, decide_eq_true_eq] at hd ha
  obtain ⟨x, rfl⟩ := Nat.exists_eq_add_of_le hd.1
  obtain ⟨y, rfl⟩ := Nat.exists_eq_add_of_le ha.1
  obtain ⟨k, rfl⟩ : ∃ k : Nat, v = (k : Int) * 8 := ⟨(v / 8).toNat, by omega⟩
  exact reads_short (cLD_all ⟨x, by omega⟩ ⟨y, by omega⟩ ⟨k, by omega⟩) ht

theorem cSW_all : ∀ d : Fin 8, ∀ a : Fin 8, ∀ k : Fin 16, decode1 (cSW (8 + d) ((k.val : Int) * 8) (8 + a)) = some (.store .sw (8 + d.val) (8 + a.val) ((k.val : Int) * 8), 2) := by
  decide +kernel

theorem cSW_reads {d a : Nat} {v : Int} (hd : rvc d = true) (ha : rvc a = true) (h1 : 0 ≤ v) (h2 : v < 128) (h3 : v % 8 = 0)
    {t : List Nat} {is : List (Insn × Nat)} (ht : Reads t is) :
    Reads (cSW d v a ++ t) ((.store .sw d a v, 2) :: is) := by
  simp only [rvc, decide_eq_true_eq] at hd ha
  obtain ⟨x, rfl⟩ := Nat.exists_eq_add_of_le hd.1
  obtain ⟨y, rfl⟩ := Nat.exists_eq_add_of_le ha.1
  obtain ⟨k, rfl⟩ : ∃ k : Nat, v = (k : Int) * 8 := ⟨(v / 8).toNat, by omega⟩
  exact reads_short (cSW_all ⟨x, by omega⟩ ⟨y, by omega⟩ ⟨k, by omega⟩) ht

theorem cSD_all : ∀ d : Fin 8, ∀ a : Fin 8, ∀ k : Fin 32, decode1 (cSD (8 + d) ((k.val : Int) * 8) (8 + a)) = some (.store .sd (8 + d.val) (8 + a.val) ((k.val : Int) * 8), 2) := by
  decide +kernel

theorem cSD_reads {d a : Nat} {v : Int} (hd : rvc d = true) (ha : rvc a = true) (h1 : 0 ≤ v) (h2 : v < 256) (h3 : v % 8 = 0)
    {t : List Nat} {is : List (Insn × Nat)} (ht : Reads t is) :
    Reads (cSD d v a ++ t) ((.store .sd d a v, 2) :: is) := by
  simp only [rvc, decide_eq_true_eq] at hd ha
  obtain ⟨x, rfl⟩ := Nat.exists_eq_add_of_le hd.1
  obtain ⟨y, rfl⟩ := Nat.exists_eq_add_of_le ha.1
  obtain ⟨k, rfl⟩ : ∃ k : Nat, v = (k : Int) * 8 := ⟨(v / 8).toNat, by omega⟩
  exact reads_short (cSD_all ⟨x, by omega⟩ ⟨y, by omega⟩ ⟨k, by omega⟩) ht

theorem cFLD_all : ∀ d : Fin 8, ∀ a : Fin 8, ∀ k : Fin 32, decode1 (cFLD (8 + d) ((k.val : Int) * 8) (8 + a)) = some (.fload true (8 + d.val) (8 + a.val) ((k.val : Int) * 8), 2) := by
  decide +kernel

theorem cFLD_reads {d a : Nat} {v : Int} (hd : rvc d = true) (ha : rvc a = true) (h1 : 0 ≤ v) (h2 : v < 256) (h3 : v % 8 = 0)
    {t : List Nat} {is : List (Insn × Nat)} (ht : Reads t is) :
    Reads (cFLD d v a ++ t) ((.fload true d a v, 2) :: is) := by
  simp only [rvc, decide_eq_true_eq] at hd ha
  obtain ⟨x, rfl⟩ := Nat.exists_eq_add_of_le hd.1
  obtain ⟨y, rfl⟩ := Nat.exists_eq_add_of_le ha.1
  obtain ⟨k, rfl⟩ : ∃ k : Nat, v = (k : Int) * 8 := ⟨(v / 8).toNat, by omega⟩
  exact reads_short (cFLD_all ⟨x, by omega⟩ ⟨y, by omega⟩ ⟨k, by omega⟩) ht

theorem cFSD_all : ∀ d : Fin 8, ∀ a : Fin 8, ∀ k : Fin 32, decode1 (cFSD (8 + d) ((k.val : Int) * 8) (8 + a)) = some (.fstore true (8 + d.val) (8 + a.val) ((k.val : Int) * 8), 2) := by
  decide +kernel

theorem cFSD_reads {d a : Nat} {v : Int} (hd : rvc d = true) (ha : rvc a = true) (h1 : 0 ≤ v) (h2 : v < 256) (h3 : v % 8 = 0)
    {t : List Nat} {is : List (Insn × Nat)} (ht : Reads t is) :
    Reads (cFSD d v a ++ t) ((.fstore true d a v, 2) :: is) := by
  simp only [rvc, decide_eq_true_eq] at hd ha
  obtain ⟨x, rfl⟩ := Nat.exists_eq_add_of_le hd.1
  obtain ⟨y, rfl⟩ := Nat.exists_eq_add_of_le ha.1
  obtain ⟨k, rfl⟩ : ∃ k : Nat, v = (k : Int) * 8 := ⟨(v / 8).toNat, by omega⟩
  exact reads_short (cFSD_all ⟨x, by omega⟩ ⟨y, by omega⟩ ⟨k, by omega⟩) ht

theorem cLDSP_all : ∀ d : Fin 32, ∀ k : Fin 64, d.val ≠ 0 → decode1 (cLDSP d ((k.val : Int) * 8)) = some (.load .ld d.val 2 ((k.val : Int) * 8), 2) := by
  decide +kernel

theorem cLDSP_reads {d : Nat} {v : Int} (hd : d < 32) (h0 : d ≠ 0) (h1 : 0 ≤ v) (h2 : v < 512) (h3 : v % 8 = 0)
    {t : List Nat} {is : List (Insn × Nat)} (ht : Reads t is) : Reads (cLDSP d v ++ t) ((.load .ld d 2 v, 2) :: is) := by
  obtain ⟨k, rfl⟩ : ∃ k : Nat, v = (k : Int) * 8 := ⟨(v / 8).toNat, by omega⟩
  exact reads_short (cLDSP_all ⟨d, hd⟩ ⟨k, by omega⟩ h0) ht

theorem cSDSP_all : ∀ d : Fin 32, ∀ k : Fin 64, decode1 (cSDSP d ((k.val : Int) * 8)) = some (.store .sd d.val 2 ((k.val : Int) * 8), 2) := by
  decide +kernel

theorem cSDSP_reads {d : Nat} {v : Int} (hd : d < 32) (h1 : 0 ≤ v) (h2 : v < 512) (h3 : v % 8 = 0)
    {t : List Nat} {is : List (Insn × Nat)} (ht : Reads t is) : Reads (cSDSP d v ++ t) ((.store .sd d 2 v, 2) :: is) := by
  obtain ⟨k, rfl⟩ : ∃ k : Nat, v = (k : Int) * 8 := ⟨(v / 8).toNat, by omega⟩
  exact reads_short (cSDSP_all ⟨d, hd⟩ ⟨k, by omega⟩) ht

theorem cFLDSP_all : ∀ d : Fin 32, ∀ k : Fin 64, decode1 (cFLDSP d ((k.val : Int) * 8)) = some (.fload true d.val 2 ((k.val : Int) * 8), 2) := by
  decide +kernel

theorem cFLDSP_reads {d : Nat} {v : Int} (hd : d < 32) (h1 : 0 ≤ v) (h2 : v < 512) (h3 : v % 8 = 0)
    {t : List Nat} {is : List (Insn × Nat)} (ht : Reads t is) : Reads (cFLDSP d v ++ t) ((.fload true d 2 v, 2) :: is) := by
  obtain ⟨k, rfl⟩ : ∃ k : Nat, v = (k : Int) * 8 := ⟨(v / 8).toNat, by omega⟩
  exact reads_short (cFLDSP_all ⟨d, hd⟩ ⟨k, by omega⟩) ht

theorem cFSDSP_all : ∀ d : Fin 32, ∀ k : Fin 64, decode1 (cFSDSP d ((k.val : Int) * 8)) = some (.fstore true d.val 2 ((k.val : Int) * 8), 2) := by
  decide +kernel

theorem cFSDSP_reads {d : Nat} {v : Int} (hd : d < 32) (h1 : 0 ≤ v) (h2 : v < 512) (h3 : v % 8 = 0)
    {t : List Nat} {is : List (Insn × Nat)} (ht : Reads t is) : Reads (cFSDSP d v ++ t) ((.fstore true d 2 v, 2) :: is) := by
  obtain ⟨k, rfl⟩ : ∃ k : Nat, v = (k : Int) * 8 := ⟨(v / 8).toNat, by omega⟩
  exact reads_short (cFSDSP_all ⟨d, hd⟩ ⟨k, by omega⟩) ht

theorem cADDI16SP_all : ∀ k : Fin 64, k.val ≠ 32 → decode1 (cADDI16SP (((k.val : Int) - 32) * 16)) = some (.i .addi 2 2 (((k.val : Int) - 32) * 16), 2) := by
  decide +kernel

theorem cADDI16SP_reads {v : Int} (h0 : v ≠ 0) (h1 : -512 ≤ v) (h2 : v < 512) (h3 : v % 16 = 0) {t : List Nat} {is : List (Insn × Nat)}
    (ht : Reads t is) : Reads (cADDI16SP v ++ t) ((.i .addi 2 2 v, 2) :: is) := by
  obtain ⟨k, rfl⟩ : ∃ k : Nat, v = ((k : Int) - 32) * 16 := ⟨(v / 16 + 32).toNat, by omega⟩
  exact reads_short (cADDI16SP_all ⟨k, by omega⟩ (by intro h; apply h0; simp only at h; omega)) ht

/-- Only bits 17 … 12 of the number matter. -/
theorem ext_div (v : Int) (t b c : Nat) : ext v (t + c) (b + c) = ext (v / 2 ^ c) t b := by
  unfold ext
  have e : t + c - (b + c) + 1 = t - b + 1 := by omega
  rw [e, Nat.add_comm b c, Int.pow_add, Int.ediv_ediv_of_nonneg (Int.le_of_lt (Int.pow_pos (by omega)))]

def cLUI' (d : Nat) (v : Int) : List Nat := c16 (0x6001 ||| (ext v 5 5 <<< 12) ||| (d <<< 7) ||| (ext v 4 0 <<< 2))

theorem cLUI_eq (d : Nat) (v : Int) : cLUI d v = cLUI' d (v / 4096) := by
  have e1 := ext_div v 5 5 12
  have e2 := ext_div v 4 0 12
  unfold cLUI cLUI'
  rw [show (4096 : Int) = 2 ^ 12 from rfl, ← e1, ← e2]

theorem cLUI_all : ∀ d : Fin 32, ∀ k : Fin 64, d.val ≠ 2 → k.val ≠ 32 →
    decode1 (cLUI' d ((k.val : Int) + (-32))) = some (.lui d.val ((k.val : Int) + (-32)), 2) := by
  decide +kernel

theorem cLUI_reads {d : Nat} {v : Int} (hd : d < 32) (hd2 : d ≠ 2) (h0 : v / 4096 ≠ 0) (h1 : -32 ≤ v / 4096) (h2 : v / 4096 < 32)
    {t : List Nat} {is : List (Insn × Nat)} (ht : Reads t is) : Reads (cLUI d v ++ t) ((.lui d (v / 4096), 2) :: is) := by
  rw [cLUI_eq]
  generalize v / 4096 = w at h0 h1 h2
  obtain ⟨k, rfl⟩ : ∃ k : Nat, w = (k : Int) + (-32) := ⟨(w - (-32)).toNat, by omega⟩
  exact reads_short (cLUI_all ⟨d, hd⟩ ⟨k, by omega⟩ hd2 (by intro h; apply h0; simp only at h; omega)) ht

theorem cJR_all : ∀ a : Fin 32, a.val ≠ 0 → decode1 (cJR a) = some (.jalr 0 a.val 0, 2) := by decide +kernel
theorem cJALR_all : ∀ a : Fin 32, a.val ≠ 0 → decode1 (cJALR a) = some (.jalr 1 a.val 0, 2) := by decide +kernel

theorem cJR_reads {a : Nat} (ha : a < 32) (h0 : a ≠ 0) {t : List Nat} {is : List (Insn × Nat)} (ht : Reads t is) :
    Reads (cJR a ++ t) ((.jalr 0 a 0, 2) :: is) := reads_short (cJR_all ⟨a, ha⟩ h0) ht

theorem cJALR_reads {a : Nat} (ha : a < 32) (h0 : a ≠ 0) {t : List Nat} {is : List (Insn × Nat)} (ht : Reads t is) :
    Reads (cJALR a ++ t) ((.jalr 1 a 0, 2) :: is) := reads_short (cJALR_all ⟨a, ha⟩ h0) ht

end Nature.Riscv
