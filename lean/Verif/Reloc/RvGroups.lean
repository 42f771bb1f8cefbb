import Verif.Reloc.RvLemmas
/-! When each group of relocations is accepted, and what it writes. -/
namespace Nature.Reloc.Rv

theorem expr_bind {α : Type} {b s n : Nat} {A : Int} (hb : b < 2 ^ 64) (hA : Wide A) (hs : s < 2 ^ 64) (h0 : 0 < n) (hn : n ≤ 64)
    (f : Int → Option α) (r : α) :
    (expressionSigned b A s n).bind f = some r ↔
      (-2 ^ (n - 1) ≤ (b : Int) + A - s ∧ (b : Int) + A - s < 2 ^ (n - 1)) ∧ f (b + A - s) = some r := by
  have key := expressionSigned_iff hb hA hs h0 hn
  cases h : expressionSigned b A s n with
  | none =>
    simp only [Option.bind_none, reduceCtorEq, false_iff]
    intro ⟨hr, _⟩
    have := (key (b + A - s)).2 ⟨rfl, hr⟩
    rw [h] at this
    cases this
  | some d =>
    obtain ⟨rfl, hr⟩ := (key d).1 h
    simp only [Option.bind_some, hr, and_self, true_and]

theorem gotHi_iff {v : Vals} {A : Int} {l : Bytes} (hv : v.Wide) (hA : Wide A) (new : Bytes) :
    gotHi v A l = some new ↔ (-2 ^ 31 ≤ (v.G : Int) + A - v.P ∧ (v.G : Int) + A - v.P < 2 ^ 31) ∧ opcode (insn l) = 0x17 ∧
      new = patch32 l writeU (v.G + A - v.P) := by
  unfold gotHi
  rw [expr_bind hv.G hA hv.P (by omega) (by omega), ← require_opcode l 0x17 (by omega)]
  cases require l 0x7f#32 (BitVec.ofNat 32 0x17) <;> simp [eq_comm]

theorem absolute_hi {v : Vals} {A : Int} {l : Bytes} {base : Nat} (hv : v.Wide) (hA : Wide A) (hb : base < 2 ^ 64) (new : Bytes) :
    absolute v A base l 0 = some new ↔ (-2 ^ 31 ≤ (v.S : Int) + A - base ∧ (v.S : Int) + A - base < 2 ^ 31) ∧ opcode (insn l) = 0x37 ∧
      new = patch32 l writeU (v.S + A - base) := by
  unfold absolute
  simp only [if_true]
  rw [expr_bind hv.S hA hb (by omega) (by omega), ← require_opcode l 0x37 (by omega)]
  cases require l 0x7f#32 (BitVec.ofNat 32 0x37) <;> simp [eq_comm]

theorem absolute_lo {v : Vals} {A : Int} {l : Bytes} {base part : Nat} (hv : v.Wide) (hA : Wide A) (hb : base < 2 ^ 64)
    (hp : part ≠ 0) (new : Bytes) :
    absolute v A base l part = some new ↔ (-2 ^ 31 ≤ (v.S : Int) + A - base ∧ (v.S : Int) + A - base < 2 ^ 31) ∧
      opcode (insn l) ∈ (if (part == 2) = true then [0x23, 0x27] else [0x03, 0x07, 0x13, 0x1b, 0x67]) ∧
      new = patch32 l (if (part == 2) = true then writeS else writeI) (v.S + A - base) := by
  unfold absolute
  simp only [hp, if_false]
  rw [expr_bind hv.S hA hb (by omega) (by omega), lowPart_iff]

theorem pcrelLo_iff {v : Vals} {A : Int} {hi : Option Hi} {l : Bytes} (hh : ∀ h, hi = some h → h.Wide) (store : Bool) (new : Bytes) :
    pcrelLo v A hi l store = some new ↔ A = 0 ∧ ∃ h, hi = some h ∧ h.Pc ∧ v.S = h.P ∧ (-2 ^ 31 ≤ h.value ∧ h.value < 2 ^ 31) ∧
      opcode (insn l) ∈ (if store then [0x23, 0x27] else [0x03, 0x07, 0x13, 0x1b, 0x67]) ∧
      new = patch32 l (if store then writeS else writeI) h.value := by
  unfold pcrelLo
  by_cases hA : A = 0
  · simp only [hA, ne_eq, not_true_eq_false, if_false, true_and]
    cases hi with
    | none => simp
    | some h =>
      have w := hh h rfl
      simp only [Option.some.injEq, exists_eq_left', Hi.Pc, Ty.code]
      by_cases ht : h.type = 23 ∨ h.type = 20 ∨ h.type = 21 ∨ h.type = 22
      · rw [if_neg (by omega)]
        by_cases hp : v.S = h.P
        · simp only [hp, not_true_eq_false, if_false]
          by_cases h23 : h.type = 23
          · simp only [h23, if_true]
            rw [expr_bind w.S w.A w.P (by omega) (by omega), lowPart_iff]
            simp [Hi.value, Ty.code, h23]
          · simp only [h23, if_false]
            rw [expr_bind w.G w.A w.P (by omega) (by omega), lowPart_iff]
            have : h.type = 20 ∨ h.type = 21 ∨ h.type = 22 := by omega
            simp [Hi.value, Ty.code, h23, this]
        · simp [hp]
      · rw [if_pos (by omega)]
        simp only [reduceCtorEq, false_iff]
        intro h'
        exact ht h'.1
  · simp [hA]

theorem tlsData_iff {v : Vals} {A : Int} {l : Bytes} (hv : v.Wide) (hA : Wide A) (dynamic wide : Bool) (new : Bytes) :
    tlsData v A l dynamic wide = some new ↔ (dynamic = true → v.TLS + 0x800 < 2 ^ 64) ∧
      (-2 ^ ((if wide then 64 else 32) - 1) ≤ (v.S : Int) + A - (if dynamic then (v.TLS : Int) + 0x800 else v.TP) ∧
        (v.S : Int) + A - (if dynamic then (v.TLS : Int) + 0x800 else v.TP) < 2 ^ ((if wide then 64 else 32) - 1)) ∧
      new = (if wide then writeU64 l (BitVec.ofInt 64 ((v.S : Int) + A - (if dynamic then (v.TLS : Int) + 0x800 else v.TP)))
        else writeU32 l (BitVec.ofInt 32 ((v.S : Int) + A - (if dynamic then (v.TLS : Int) + 0x800 else v.TP)))) := by
  unfold tlsData
  cases dynamic
  · simp only [Bool.false_and, Bool.false_eq_true, if_false, false_implies, true_and]
    rw [expr_bind hv.S hA hv.TP (by cases wide <;> simp) (by cases wide <;> simp)]
    simp [eq_comm]
  · simp only [Bool.true_and, if_true, decide_eq_true_eq, true_implies]
    by_cases h : 2 ^ 64 - 1 - 0x800 < v.TLS
    · rw [if_pos h]
      simp only [reduceCtorEq, false_iff]
      intro ⟨h', _⟩
      omega
    · rw [if_neg h]
      have h2 : v.TLS + 0x800 < 2 ^ 64 := by omega
      rw [expr_bind hv.S hA h2 (by cases wide <;> simp) (by cases wide <;> simp)]
      simp only [h2, true_and, Int.natCast_add]
      simp [eq_comm]

theorem pc_iff {v : Vals} {A : Int} {l : Bytes} (hv : v.Wide) (hA : Wide A) (type : Nat) (new : Bytes) :
    ((expressionSigned v.S A v.P 64).bind fun delta => pcrel type l delta) = some new ↔
      (-2 ^ 63 ≤ (v.S : Int) + A - v.P ∧ (v.S : Int) + A - v.P < 2 ^ 63) ∧ pcrel type l (v.S + A - v.P) = some new :=
  expr_bind hv.S hA hv.P (by omega) (by omega) _ _

theorem pcrel_branch {l : Bytes} (x : Int) (new : Bytes) :
    pcrel 16 l x = some new ↔ opcode (insn l) = 0x63 ∧ (x % 2 = 0 ∧ -2 ^ 12 ≤ x ∧ x < 2 ^ 12) ∧ new = patch32 l writeB x := by
  have k := signedFits_iff x (bits := 13) (by omega) (by omega)
  simp only [pcrel]
  rw [← require_opcode l 0x63 (by omega)]
  rw [show (13 : Nat) - 1 = 12 from rfl] at k
  rw [← k]
  by_cases h : x % 2 = 0 <;> cases require l 0x7f#32 (BitVec.ofNat 32 0x63) <;> cases signedFits x 13 <;> simp [h, eq_comm]

theorem pcrel_jal {l : Bytes} (x : Int) (new : Bytes) :
    pcrel 17 l x = some new ↔ opcode (insn l) = 0x6f ∧ (x % 2 = 0 ∧ -2 ^ 20 ≤ x ∧ x < 2 ^ 20) ∧ new = patch32 l writeJ x := by
  have k := signedFits_iff x (bits := 21) (by omega) (by omega)
  simp only [pcrel]
  rw [← require_opcode l 0x6f (by omega)]
  rw [show (21 : Nat) - 1 = 20 from rfl] at k
  rw [← k]
  by_cases h : x % 2 = 0 <;> cases require l 0x7f#32 (BitVec.ofNat 32 0x6f) <;> cases signedFits x 21 <;> simp [h, eq_comm]

theorem low2 (w : BitVec 16) : (w &&& 3#16).toNat = (w.extractLsb' 0 2).toNat := by
  rw [BitVec.toNat_and, BitVec.extractLsb'_toNat]
  simp only [Nat.shiftRight_zero]
  exact Nat.and_two_pow_sub_one_eq_mod _ 2

theorem top3 (w : BitVec 16) : (w >>> 13).toNat = (w.extractLsb' 13 3).toNat := by
  have := w.isLt
  rw [BitVec.toNat_ushiftRight, BitVec.extractLsb'_toNat, Nat.shiftRight_eq_div_pow]
  omega

theorem eq_iff_toNat {n : Nat} (a b : BitVec n) : a = b ↔ a.toNat = b.toNat := ⟨fun h => by rw [h], BitVec.eq_of_toNat_eq⟩

theorem pcrel_cb {l : Bytes} (x : Int) (new : Bytes) :
    pcrel 44 l x = some new ↔
      ((cinsn l).extractLsb' 0 2 = 1#2 ∧ ((cinsn l).extractLsb' 13 3 = 6#3 ∨ (cinsn l).extractLsb' 13 3 = 7#3)) ∧
      (x % 2 = 0 ∧ -2 ^ 8 ≤ x ∧ x < 2 ^ 8) ∧ new = patch16 l writeCB x := by
  have k := signedFits_iff x (bits := 9) (by omega) (by omega)
  rw [show (9 : Nat) - 1 = 8 from rfl] at k
  simp only [pcrel]
  rw [← k, readU16_eq, eq_comm (a := new)]
  have a : (cinsn l &&& 3#16 = 1#16) ↔ (cinsn l).extractLsb' 0 2 = 1#2 := by rw [eq_iff_toNat, eq_iff_toNat, low2]; rfl
  have b : (cinsn l >>> 13 = 6#16) ↔ (cinsn l).extractLsb' 13 3 = 6#3 := by rw [eq_iff_toNat, eq_iff_toNat, top3]; rfl
  have c : (cinsn l >>> 13 = 7#16) ↔ (cinsn l).extractLsb' 13 3 = 7#3 := by rw [eq_iff_toNat, eq_iff_toNat, top3]; rfl
  simp only [ne_eq, a, b, c]
  by_cases h : x % 2 = 0 <;> by_cases h1 : (cinsn l).extractLsb' 0 2 = 1#2 <;> by_cases h2 : (cinsn l).extractLsb' 13 3 = 6#3 <;>
    by_cases h3 : (cinsn l).extractLsb' 13 3 = 7#3 <;> cases signedFits x 9 <;> simp [h, h1, h2, h3]

theorem cj_form (w : BitVec 16) : (w &&& 0xe003#16 = 0xa001#16) ↔ w.extractLsb' 0 2 = 1#2 ∧ w.extractLsb' 13 3 = 5#3 := by
  have e : w &&& 0xe003#16 = ((w.extractLsb' 13 3 ++ 0#11 ++ w.extractLsb' 0 2).setWidth 16) := by
    apply BitVec.eq_of_getLsbD_eq
    intro i hi
    have h : i = 0 ∨ i = 1 ∨ i = 2 ∨ i = 3 ∨ i = 4 ∨ i = 5 ∨ i = 6 ∨ i = 7 ∨ i = 8 ∨ i = 9 ∨ i = 10 ∨ i = 11 ∨ i = 12 ∨ i = 13 ∨ i = 14 ∨ i = 15 := by
      omega
    rcases h with rfl | rfl | rfl | rfl | rfl | rfl | rfl | rfl | rfl | rfl | rfl | rfl | rfl | rfl | rfl | rfl <;>
      simp only [BitVec.getLsbD_setWidth, BitVec.getLsbD_append, BitVec.getLsbD_extractLsb', BitVec.getLsbD_and] <;> simp
  have e2 : (w &&& 0xe003#16).toNat = (w.extractLsb' 13 3).toNat * 8192 + (w.extractLsb' 0 2).toNat := by
    have h1 := (w.extractLsb' 13 3).isLt
    have h2 := (w.extractLsb' 0 2).isLt
    rw [e, BitVec.toNat_setWidth, BitVec.toNat_append, BitVec.toNat_append, ← Nat.shiftLeft_add_eq_or_of_lt h2,
      Nat.shiftLeft_eq, Nat.shiftLeft_eq]
    simp only [BitVec.toNat_ofNat, Nat.zero_mod, Nat.or_zero]
    omega
  have h1 := (w.extractLsb' 13 3).isLt
  have h2 := (w.extractLsb' 0 2).isLt
  rw [eq_iff_toNat, eq_iff_toNat, eq_iff_toNat, e2]
  show _ = 40961 ↔ _ = 1 ∧ _ = 5
  omega

theorem pcrel_cj {l : Bytes} (x : Int) (new : Bytes) :
    pcrel 45 l x = some new ↔
      ((cinsn l).extractLsb' 0 2 = 1#2 ∧ (cinsn l).extractLsb' 13 3 = 5#3) ∧
      (x % 2 = 0 ∧ -2 ^ 11 ≤ x ∧ x < 2 ^ 11) ∧ new = patch16 l writeCJ x := by
  have k := signedFits_iff x (bits := 12) (by omega) (by omega)
  rw [show (12 : Nat) - 1 = 11 from rfl] at k
  simp only [pcrel]
  rw [← k, readU16_eq, ← cj_form]
  by_cases h : x % 2 = 0 <;> by_cases h1 : cinsn l &&& 0xe003#16 = 0xa001#16 <;> cases signedFits x 12 <;> simp [h, h1, eq_comm]

theorem pcrel_hi {l : Bytes} (x : Int) (new : Bytes) :
    pcrel 23 l x = some new ↔ opcode (insn l) = 0x17 ∧ (-2 ^ 31 ≤ x ∧ x < 2 ^ 31) ∧ new = patch32 l writeU x := by
  have k := signedFits_iff x (bits := 32) (by omega) (by omega)
  rw [show (32 : Nat) - 1 = 31 from rfl] at k
  simp only [pcrel]
  rw [← k, ← require_opcode l 0x17 (by omega)]
  cases require l 0x7f#32 (BitVec.ofNat 32 0x17) <;> cases signedFits x 32 <;> simp [eq_comm]

theorem pcrel_32 {l : Bytes} (x : Int) (new : Bytes) :
    pcrel 57 l x = some new ↔ (-2 ^ 31 ≤ x ∧ x < 2 ^ 31) ∧ new = writeU32 l (BitVec.ofInt 32 x) := by
  have k := signedFits_iff x (bits := 32) (by omega) (by omega)
  rw [show (32 : Nat) - 1 = 31 from rfl] at k
  simp only [pcrel]
  rw [← k]
  cases signedFits x 32 <;> simp [eq_comm]

theorem call_iff {l : Bytes} (type : Nat) (x : Int) (new : Bytes) :
    call type l x = some new ↔ ((JumpPair l x ∨ type = 18 ∧ AddressPair l) ∧ (-2 ^ 31 ≤ x ∧ x < 2 ^ 31)) ∧
      new = atOff 4 (patch32 l writeU x) fun r => patch32 r writeI x := by
  have k := signedFits_iff x (bits := 32) (by omega) (by omega)
  rw [show (32 : Nat) - 1 = 31 from rfl] at k
  unfold call JumpPair AddressPair rs1 rd
  rw [← k, eq_comm (a := new), ← require_opcode l 0x17 (by omega)]
  simp only [readU32_eq]
  have j := op_funct (insn (l.drop 4)) 0x67 (by omega)
  have a := op_funct (insn (l.drop 4)) 0x13 (by omega)
  have r1 := reg_eq (insn (l.drop 4)) (insn l) 15 7
  have r2 := reg_eq (insn (l.drop 4)) (insn l) 7 7
  rw [← r1, ← r2]
  have hne : ¬ (opcode (insn (l.drop 4)) = 0x67 ∧ opcode (insn (l.drop 4)) = 0x13) := by omega
  have jr : (opcode (insn (l.drop 4)) = 0x67 ∧ funct3 (insn (l.drop 4)) = 0) ↔ ((insn (l.drop 4) &&& 0x707f#32 == BitVec.ofNat 32 0x67) = true) := j.symm
  have ar : (opcode (insn (l.drop 4)) = 0x13 ∧ funct3 (insn (l.drop 4)) = 0) ↔ ((insn (l.drop 4) &&& 0x707f#32 == BitVec.ofNat 32 0x13) = true) := a.symm
  have excl : ¬ ((insn (l.drop 4) &&& 0x707f#32 == BitVec.ofNat 32 0x67) = true ∧ (insn (l.drop 4) &&& 0x707f#32 == BitVec.ofNat 32 0x13) = true) := by
    rw [j, a]; omega
  have s1 : ∀ q : Prop, (opcode (insn (l.drop 4)) = 0x67 ∧ funct3 (insn (l.drop 4)) = 0 ∧ q) ↔
      ((insn (l.drop 4) &&& 0x707f#32 == BitVec.ofNat 32 0x67) = true) ∧ q := by intro q; rw [← and_assoc, jr]
  have s2 : ∀ q : Prop, (opcode (insn (l.drop 4)) = 0x13 ∧ funct3 (insn (l.drop 4)) = 0 ∧ q) ↔
      ((insn (l.drop 4) &&& 0x707f#32 == BitVec.ofNat 32 0x13) = true) ∧ q := by intro q; rw [← and_assoc, ar]
  rw [s1, s2]
  clear j a r1 r2 jr ar s1 s2 hne k
  generalize (atOff 4 (patch32 l writeU x) fun r => patch32 r writeI x) = res
  revert excl
  cases require l 0x7f#32 (BitVec.ofNat 32 0x17) <;> cases (insn (l.drop 4) &&& 0x707f#32 == BitVec.ofNat 32 0x67) <;>
    cases (insn (l.drop 4) &&& 0x707f#32 == BitVec.ofNat 32 0x13) <;>
    cases (insn (l.drop 4) >>> 15 &&& 0x1f#32 == insn l >>> 7 &&& 0x1f#32) <;>
    cases (insn (l.drop 4) >>> 7 &&& 0x1f#32 == insn l >>> 7 &&& 0x1f#32) <;>
    by_cases h2 : x % 2 = 0 <;> by_cases h18 : type = 18 <;> cases signedFits x 32 <;> simp [h2, h18]

end Nature.Reloc.Rv
