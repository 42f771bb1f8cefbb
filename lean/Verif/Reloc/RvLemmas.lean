import Verif.Reloc.RvFields
/-! What one application does, group by group. -/
namespace Nature.Reloc.Rv

/-- Result of one application: the value fits, the form was right, the place shows the value, nothing else changed. -/
def Good (f : Field) (old new : Bytes) (x : Int) : Prop := f.Fits x ∧ f.Shows old new x ∧ f.Keeps old new

theorem patch32_insn (l : Bytes) (f : BitVec 32 → Int → BitVec 32) (x : Int) : insn (patch32 l f x) = f (insn l) x := by
  unfold patch32
  rw [insn_writeU32, readU32_eq]

theorem patch16_insn (l : Bytes) (f : BitVec 16 → Int → BitVec 16) (x : Int) : cinsn (patch16 l f x) = f (cinsn l) x := by
  unfold patch16
  rw [cinsn_writeU16, readU16_eq]

theorem patch32_length {l : Bytes} (h : 4 ≤ l.length) (f : BitVec 32 → Int → BitVec 32) (x : Int) :
    (patch32 l f x).length = l.length := length_writeU32 h _

theorem patch32_drop (l : Bytes) (f : BitVec 32 → Int → BitVec 32) (x : Int) : (patch32 l f x).drop 4 = l.drop 4 := drop_writeU32 _ _

theorem patch16_length {l : Bytes} (h : 2 ≤ l.length) (f : BitVec 16 → Int → BitVec 16) (x : Int) :
    (patch16 l f x).length = l.length := length_writeU16 h _

theorem patch16_drop (l : Bytes) (f : BitVec 16 → Int → BitVec 16) (x : Int) : (patch16 l f x).drop 2 = l.drop 2 := drop_writeU16 _ _

theorem good_U {l : Bytes} (h : 4 ≤ l.length) {x : Int} (h1 : -2 ^ 31 - 2048 ≤ x) (h2 : x < 2 ^ 31 - 2048) :
    Good .U l (patch32 l writeU x) x :=
  ⟨⟨h1, h2⟩, by show immU _ = _; rw [patch32_insn, immU_writeU _ h1 h2],
   patch32_length h _ _, patch32_drop _ _ _, by show _ = _; rw [patch32_insn, keep_U]⟩

theorem good_I {l : Bytes} (h : 4 ≤ l.length) (x : Int) : Good .I l (patch32 l writeI x) x :=
  ⟨trivial, by show immI _ = _; rw [patch32_insn, immI_writeI],
   patch32_length h _ _, patch32_drop _ _ _, by show _ = _; rw [patch32_insn, keep_I]⟩

theorem good_S {l : Bytes} (h : 4 ≤ l.length) (x : Int) : Good .S l (patch32 l writeS x) x :=
  ⟨trivial, by show immS _ = _; rw [patch32_insn, immS_writeS],
   patch32_length h _ _, patch32_drop _ _ _, by show _ ∧ _; rw [patch32_insn, keep_S, keep_S2]; exact ⟨rfl, rfl⟩⟩

theorem good_B {l : Bytes} (h : 4 ≤ l.length) {x : Int} (h0 : x % 2 = 0) (h1 : -2 ^ 12 ≤ x) (h2 : x < 2 ^ 12) :
    Good .B l (patch32 l writeB x) x :=
  ⟨⟨h0, h1, h2⟩, by show immB _ = _; rw [patch32_insn, immB_writeB _ h0 h1 h2],
   patch32_length h _ _, patch32_drop _ _ _, by show _ ∧ _; rw [patch32_insn, keep_B, keep_B2]; exact ⟨rfl, rfl⟩⟩

theorem good_J {l : Bytes} (h : 4 ≤ l.length) {x : Int} (h0 : x % 2 = 0) (h1 : -2 ^ 20 ≤ x) (h2 : x < 2 ^ 20) :
    Good .J l (patch32 l writeJ x) x :=
  ⟨⟨h0, h1, h2⟩, by show immJ _ = _; rw [patch32_insn, immJ_writeJ _ h0 h1 h2],
   patch32_length h _ _, patch32_drop _ _ _, by show _ = _; rw [patch32_insn, keep_J]⟩

theorem good_CB {l : Bytes} (h : 2 ≤ l.length) {x : Int} (h0 : x % 2 = 0) (h1 : -2 ^ 8 ≤ x) (h2 : x < 2 ^ 8) :
    Good .CB l (patch16 l writeCB x) x :=
  ⟨⟨h0, h1, h2⟩, by show immCB _ = _; rw [patch16_insn, immCB_writeCB _ h0 h1 h2],
   patch16_length h _ _, patch16_drop _ _ _, by
     show _ ∧ _ ∧ _; rw [patch16_insn, keep_CB, keep_CB2, keep_CB3]; exact ⟨rfl, rfl, rfl⟩⟩

theorem good_CJ {l : Bytes} (h : 2 ≤ l.length) {x : Int} (h0 : x % 2 = 0) (h1 : -2 ^ 11 ≤ x) (h2 : x < 2 ^ 11) :
    Good .CJ l (patch16 l writeCJ x) x :=
  ⟨⟨h0, h1, h2⟩, by show immCJ _ = _; rw [patch16_insn, immCJ_writeCJ _ h0 h1 h2],
   patch16_length h _ _, patch16_drop _ _ _, by show _ ∧ _; rw [patch16_insn, keep_CJ, keep_CJ2]; exact ⟨rfl, rfl⟩⟩

theorem good_pair {l : Bytes} (h : 8 ≤ l.length) {x : Int} (h1 : -2 ^ 31 - 2048 ≤ x) (h2 : x < 2 ^ 31 - 2048) :
    Good .pair l (atOff 4 (patch32 l writeU x) fun r => patch32 r writeI x) x := by
  have hl : 4 ≤ l.length := by omega
  have len := patch32_length hl writeU x
  have e : atOff 4 (patch32 l writeU x) (fun r => patch32 r writeI x) = (patch32 l writeU x).take 4 ++ patch32 (l.drop 4) writeI x := by
    unfold atOff
    rw [patch32_drop]
  have t : ((patch32 l writeU x).take 4).length = 4 := by rw [List.length_take]; omega
  have hd : (atOff 4 (patch32 l writeU x) (fun r => patch32 r writeI x)).drop 4 = patch32 (l.drop 4) writeI x := by
    rw [e, List.drop_append_of_le_length (by omega), List.drop_of_length_le (by omega), List.nil_append]
  have hi : insn (atOff 4 (patch32 l writeU x) (fun r => patch32 r writeI x)) = insn (patch32 l writeU x) := by
    rw [e]
    unfold insn patch32 writeU32
    simp [leNat]
  refine ⟨⟨h1, h2⟩, ?_, ?_, ?_, ?_⟩
  · show immU _ + immI _ = _
    rw [hd, hi, patch32_insn, patch32_insn, immU_writeU _ h1 h2, immI_writeI]
    omega
  · rw [e, List.length_append, t, patch32_length (by simp; omega)]
    simp; omega
  · show List.drop 8 _ = List.drop 8 _
    have := congrArg (List.drop 4) hd
    rw [List.drop_drop, patch32_drop, List.drop_drop] at this
    exact this
  · show _ ∧ _
    rw [hd, hi, patch32_insn, patch32_insn, keep_U, keep_I]
    exact ⟨rfl, rfl⟩

theorem good_signed4 {l : Bytes} (h : 4 ≤ l.length) {x : Int} (h1 : -2 ^ 31 ≤ x) (h2 : x < 2 ^ 31) :
    Good (.signed 4) l (writeU32 l (BitVec.ofInt 32 x)) x :=
  ⟨⟨h1, h2⟩, by show signedNat 4 _ = _; rw [leNat_writeU32]; exact signed_ofInt (n := 4) (by omega) h1 h2,
   length_writeU32 h _, drop_writeU32 _ _, trivial⟩

theorem good_signed8 {l : Bytes} (h : 8 ≤ l.length) {x : Int} (h1 : -2 ^ 63 ≤ x) (h2 : x < 2 ^ 63) :
    Good (.signed 8) l (writeU64 l (BitVec.ofInt 64 x)) x :=
  ⟨⟨h1, h2⟩, by show signedNat 8 _ = _; rw [leNat_writeU64]; exact signed_ofInt (n := 8) (by omega) h1 h2,
   length_writeU64 h _, drop_writeU64 _ _, trivial⟩

theorem good_unsigned4 {l : Bytes} (h : 4 ≤ l.length) {x : Nat} (h2 : x < 2 ^ 32) :
    Good (.unsigned 4) l (writeU32 l (BitVec.ofNat 32 x)) x :=
  ⟨⟨by omega, by simp; omega⟩, by
    show ((leNat 4 _ : Nat) : Int) = _
    rw [leNat_writeU32, BitVec.toNat_ofNat, Nat.mod_eq_of_lt h2],
   length_writeU32 h _, drop_writeU32 _ _, trivial⟩

theorem good_wrapped8 {l : Bytes} (h : 8 ≤ l.length) (b : Nat) (A : Int) : Good (.wrapped 8) l (writeU64 l (addModulo b A)) (b + A) :=
  ⟨trivial, by show ((leNat 8 _ : Nat) : Int) = _; rw [leNat_writeU64, addModulo_toNat], length_writeU64 h _, drop_writeU64 _ _, trivial⟩

theorem good_wrapped4 {l : Bytes} (h : 4 ≤ l.length) (b : Nat) (A : Int) :
    Good (.wrapped 4) l (writeU32 l ((addModulo b A).setWidth 32)) (b + A) :=
  ⟨trivial, by show ((leNat 4 _ : Nat) : Int) = _; rw [leNat_writeU32, addModulo_setWidth _ _ (by omega)],
   length_writeU32 h _, drop_writeU32 _ _, trivial⟩

theorem good_wrapped2 {l : Bytes} (h : 2 ≤ l.length) (b : Nat) (A : Int) :
    Good (.wrapped 2) l (writeU16 l ((addModulo b A).setWidth 16)) (b + A) :=
  ⟨trivial, by show ((leNat 2 _ : Nat) : Int) = _; rw [leNat_writeU16, addModulo_setWidth _ _ (by omega)],
   length_writeU16 h _, drop_writeU16 _ _, trivial⟩

theorem good_wrapped1 {l : Bytes} (h : 1 ≤ l.length) (b : Nat) (A : Int) :
    Good (.wrapped 1) l (writeU8 l ((addModulo b A).setWidth 8)) (b + A) :=
  ⟨trivial, by show ((leNat 1 _ : Nat) : Int) = _; rw [leNat_writeU8, addModulo_setWidth _ _ (by omega)],
   length_writeU8 h _, drop_writeU8 _ _, trivial⟩

theorem byte_toNat (l : Bytes) : (l.getD 0 0#8).toNat = leNat 1 l := by
  cases l <;> simp [leNat]

theorem half_toNat (l : Bytes) : (readU16 l).toNat = leNat 2 l := by
  rw [readU16_eq]
  unfold cinsn
  rw [BitVec.toNat_ofNat, Nat.mod_eq_of_lt (leNat_lt 2 l)]

theorem word_toNat (l : Bytes) : (readU32 l).toNat = leNat 4 l := by
  rw [readU32_eq]
  unfold insn
  rw [BitVec.toNat_ofNat, Nat.mod_eq_of_lt (leNat_lt 4 l)]

theorem good_addSub {l : Bytes} {n : Nat} (hn : n = 1 ∨ n = 2 ∨ n = 4 ∨ n = 8) (h : n ≤ l.length) (v : Vals) (A : Int) (sub : Bool) :
    ∃ new, addSub v A l n sub = some new ∧ Good (if sub then .minus n else .plus n) l new (v.S + A) := by
  rcases hn with rfl | rfl | rfl | rfl
  · refine ⟨_, rfl, ?_⟩
    have e := addModulo_setWidth v.S A (n := 8) (by omega)
    have b := byte_toNat l
    cases sub
    · refine ⟨trivial, ?_, length_writeU8 h _, drop_writeU8 _ _, trivial⟩
      show ((leNat 1 _ : Nat) : Int) = (leNat 1 l + _) % _
      rw [leNat_writeU8]
      simp only [Bool.false_eq_true, if_false]
      rw [BitVec.toNat_add, b]
      omega
    · refine ⟨trivial, ?_, length_writeU8 h _, drop_writeU8 _ _, trivial⟩
      show ((leNat 1 _ : Nat) : Int) = (leNat 1 l - _) % _
      rw [leNat_writeU8]
      simp only [if_true]
      have := ((addModulo v.S A).setWidth 8).isLt
      rw [BitVec.toNat_sub, b]
      omega
  · refine ⟨_, rfl, ?_⟩
    have e := addModulo_setWidth v.S A (n := 16) (by omega)
    have b := half_toNat l
    cases sub
    · refine ⟨trivial, ?_, length_writeU16 h _, drop_writeU16 _ _, trivial⟩
      show ((leNat 2 _ : Nat) : Int) = (leNat 2 l + _) % _
      rw [leNat_writeU16]
      simp only [Bool.false_eq_true, if_false]
      rw [BitVec.toNat_add, b]
      omega
    · refine ⟨trivial, ?_, length_writeU16 h _, drop_writeU16 _ _, trivial⟩
      show ((leNat 2 _ : Nat) : Int) = (leNat 2 l - _) % _
      rw [leNat_writeU16]
      simp only [if_true]
      have := ((addModulo v.S A).setWidth 16).isLt
      rw [BitVec.toNat_sub, b]
      omega
  · refine ⟨_, rfl, ?_⟩
    have e := addModulo_setWidth v.S A (n := 32) (by omega)
    have b := word_toNat l
    cases sub
    · refine ⟨trivial, ?_, length_writeU32 h _, drop_writeU32 _ _, trivial⟩
      show ((leNat 4 _ : Nat) : Int) = (leNat 4 l + _) % _
      rw [leNat_writeU32]
      simp only [Bool.false_eq_true, if_false]
      rw [BitVec.toNat_add, b]
      omega
    · refine ⟨trivial, ?_, length_writeU32 h _, drop_writeU32 _ _, trivial⟩
      show ((leNat 4 _ : Nat) : Int) = (leNat 4 l - _) % _
      rw [leNat_writeU32]
      simp only [if_true]
      have := ((addModulo v.S A).setWidth 32).isLt
      rw [BitVec.toNat_sub, b]
      omega
  · refine ⟨_, rfl, ?_⟩
    have e := addModulo_toNat v.S A
    have b := readU64_toNat l
    cases sub
    · refine ⟨trivial, ?_, length_writeU64 h _, drop_writeU64 _ _, trivial⟩
      show ((leNat 8 _ : Nat) : Int) = (leNat 8 l + _) % _
      rw [leNat_writeU64]
      simp only [Bool.false_eq_true, if_false]
      rw [BitVec.toNat_add, b]
      omega
    · refine ⟨trivial, ?_, length_writeU64 h _, drop_writeU64 _ _, trivial⟩
      show ((leNat 8 _ : Nat) : Int) = (leNat 8 l - _) % _
      rw [leNat_writeU64]
      simp only [if_true]
      have := (addModulo v.S A).isLt
      rw [BitVec.toNat_sub, b]
      omega

theorem six_toNat (a b : BitVec 8) : ((a &&& 0xc0#8) ||| (b &&& 0x3f#8)).toNat = a.toNat / 64 * 64 + b.toNat % 64 := by
  have e1 : (a &&& 0xc0#8).toNat = a.toNat / 64 * 64 := by
    rw [BitVec.toNat_and]
    have : ∀ n : Fin 256, n.val &&& (0xc0#8).toNat = n.val / 64 * 64 := by decide +kernel
    exact this ⟨a.toNat, a.isLt⟩
  have e2 : (b &&& 0x3f#8).toNat = b.toNat % 64 := by
    rw [BitVec.toNat_and]
    have : ∀ n : Fin 256, n.val &&& (0x3f#8).toNat = n.val % 64 := by decide +kernel
    exact this ⟨b.toNat, b.isLt⟩
  have lt : b.toNat % 64 < 2 ^ 6 := Nat.mod_lt _ (by omega)
  have e3 : a.toNat / 64 * 64 = (a.toNat / 64) <<< 6 := by rw [Nat.shiftLeft_eq]
  rw [BitVec.toNat_or, e1, e2, e3, ← Nat.shiftLeft_add_eq_or_of_lt lt]

theorem good_six {l : Bytes} (h : 1 ≤ l.length) (b : Nat) (A : Int) :
    Good .six l (writeU8 l ((l.getD 0 0#8 &&& 0xc0#8) ||| ((addModulo b A).setWidth 8 &&& 0x3f#8))) (b + A) := by
  have e := addModulo_setWidth b A (n := 8) (by omega)
  have lt := leNat_lt 1 l
  refine ⟨trivial, ?_, length_writeU8 h _, drop_writeU8 _ _, ?_⟩
  · show ((leNat 1 _ : Nat) : Int) % 64 = _ % 64
    rw [leNat_writeU8, six_toNat]
    omega
  · show leNat 1 _ / 64 = leNat 1 _ / 64
    rw [leNat_writeU8, six_toNat, byte_toNat]
    omega

theorem good_minusSix {l : Bytes} (h : 1 ≤ l.length) (b : Nat) (A : Int) :
    Good .minusSix l (writeU8 l ((l.getD 0 0#8 &&& 0xc0#8) ||| ((l.getD 0 0#8 - (addModulo b A).setWidth 8) &&& 0x3f#8))) (b + A) := by
  have e := addModulo_setWidth b A (n := 8) (by omega)
  have lt := leNat_lt 1 l
  have := ((addModulo b A).setWidth 8).isLt
  refine ⟨trivial, ?_, length_writeU8 h _, drop_writeU8 _ _, ?_⟩
  · show ((leNat 1 _ : Nat) : Int) % 64 = (leNat 1 l - _) % 64
    rw [leNat_writeU8, six_toNat, BitVec.toNat_sub, byte_toNat]
    omega
  · show leNat 1 _ / 64 = leNat 1 _ / 64
    rw [leNat_writeU8, six_toNat, byte_toNat]
    omega

/-! ### Forms -/

theorem opcode_iff (w : BitVec 32) (c : Nat) (hc : c < 128) : (w &&& 0x7f#32 == BitVec.ofNat 32 c) = true ↔ opcode w = c := by
  have e : (w &&& 0x7f#32).toNat = opcode w := by
    unfold opcode
    rw [BitVec.toNat_and, BitVec.extractLsb'_toNat]
    simp only [Nat.shiftRight_zero, BitVec.toNat_ofNat]
    exact Nat.and_two_pow_sub_one_eq_mod w.toNat 7
  rw [beq_iff_eq, ← e]
  constructor
  · intro h; rw [h, BitVec.toNat_ofNat, Nat.mod_eq_of_lt (by omega)]
  · intro h; apply BitVec.eq_of_toNat_eq; rw [h, BitVec.toNat_ofNat, Nat.mod_eq_of_lt (by omega)]

theorem require_opcode (l : Bytes) (c : Nat) (hc : c < 128) : require l 0x7f#32 (BitVec.ofNat 32 c) = true ↔ opcode (insn l) = c := by
  unfold require
  rw [readU32_eq]
  exact opcode_iff _ c hc

theorem iType_iff (w : BitVec 32) : iType w = true ↔ opcode w ∈ [0x03, 0x07, 0x13, 0x1b, 0x67] := by
  unfold iType
  simp only [Bool.or_eq_true, List.mem_cons, List.not_mem_nil, or_false]
  rw [opcode_iff w 0x03 (by omega), opcode_iff w 0x07 (by omega), opcode_iff w 0x13 (by omega), opcode_iff w 0x1b (by omega),
    opcode_iff w 0x67 (by omega)]
  simp only [or_assoc]

theorem sType_iff (w : BitVec 32) : sType w = true ↔ opcode w ∈ [0x23, 0x27] := by
  unfold sType
  simp only [Bool.or_eq_true, List.mem_cons, List.not_mem_nil, or_false]
  rw [opcode_iff w 0x23 (by omega), opcode_iff w 0x27 (by omega)]

theorem lowPart_iff {l : Bytes} (store : Bool) (x : Int) (new : Bytes) :
    lowPart l store x = some new ↔ opcode (insn l) ∈ (if store then [0x23, 0x27] else [0x03, 0x07, 0x13, 0x1b, 0x67]) ∧
      new = patch32 l (if store then writeS else writeI) x := by
  unfold lowPart
  cases store
  · simp only [Bool.false_eq_true, if_false]
    rw [readU32_eq, ← iType_iff]
    cases iType (insn l) <;> simp [eq_comm]
  · simp only [if_true]
    rw [readU32_eq, ← sType_iff]
    cases sType (insn l) <;> simp [eq_comm]

/-- Masked comparison with opcode and funct3. -/
theorem op_funct (w : BitVec 32) (c : Nat) (hc : c < 128) :
    (w &&& 0x707f#32 == BitVec.ofNat 32 c) = true ↔ opcode w = c ∧ funct3 w = 0 := by
  have e : (w &&& 0x707f#32).toNat = opcode w + 4096 * funct3 w := by
    have s1 : w &&& 0x707f#32 = (w &&& 0x7000#32) ||| (w &&& 0x7f#32) := by
      apply BitVec.eq_of_getLsbD_eq
      intro i hi
      rw [BitVec.getLsbD_or, BitVec.getLsbD_and, BitVec.getLsbD_and, BitVec.getLsbD_and, ← Bool.and_or_distrib_left]
      congr 1
      have : ∀ i : Fin 32, (0x707f#32).getLsbD i.val = ((0x7000#32).getLsbD i.val || (0x7f#32).getLsbD i.val) := by decide +kernel
      exact this ⟨i, hi⟩
    have s2 : (w &&& 0x7f#32).toNat = opcode w := by
      unfold opcode
      rw [BitVec.toNat_and, BitVec.extractLsb'_toNat]
      simp only [Nat.shiftRight_zero, BitVec.toNat_ofNat]
      exact Nat.and_two_pow_sub_one_eq_mod w.toNat 7
    have s3 : w &&& 0x7000#32 = ((w.extractLsb' 12 3 ++ 0#12).setWidth 32) := by
      apply BitVec.eq_of_getLsbD_eq
      intro i hi
      have h : i = 0 ∨ i = 1 ∨ i = 2 ∨ i = 3 ∨ i = 4 ∨ i = 5 ∨ i = 6 ∨ i = 7 ∨ i = 8 ∨ i = 9 ∨ i = 10 ∨ i = 11 ∨ i = 12 ∨ i = 13 ∨ i = 14 ∨ i = 15 ∨ i = 16 ∨ i = 17 ∨ i = 18 ∨ i = 19 ∨ i = 20 ∨ i = 21 ∨ i = 22 ∨ i = 23 ∨ i = 24 ∨ i = 25 ∨ i = 26 ∨ i = 27 ∨ i = 28 ∨ i = 29 ∨ i = 30 ∨ i = 31 := by omega
      rcases h with rfl | rfl | rfl | rfl | rfl | rfl | rfl | rfl | rfl | rfl | rfl | rfl | rfl | rfl | rfl | rfl | rfl | rfl | rfl | rfl | rfl | rfl | rfl | rfl | rfl | rfl | rfl | rfl | rfl | rfl | rfl | rfl <;>
        simp only [BitVec.getLsbD_setWidth, BitVec.getLsbD_append, BitVec.getLsbD_extractLsb', BitVec.getLsbD_and] <;> simp
    have s4 : (w &&& 0x7000#32).toNat = funct3 w <<< 12 := by
      rw [s3, BitVec.toNat_setWidth, BitVec.toNat_append]
      unfold funct3
      have := (w.extractLsb' 12 3).isLt
      simp only [BitVec.toNat_ofNat, Nat.zero_mod, Nat.or_zero, Nat.shiftLeft_eq]
      omega
    have lt : opcode w < 2 ^ 12 := by
      have := (w.extractLsb' 0 7).isLt
      unfold opcode
      omega
    rw [s1, BitVec.toNat_or, s2, s4, ← Nat.shiftLeft_add_eq_or_of_lt lt, Nat.shiftLeft_eq]
    omega
  have lt : opcode w < 128 := (w.extractLsb' 0 7).isLt
  rw [beq_iff_eq]
  constructor
  · intro h
    rw [h, BitVec.toNat_ofNat, Nat.mod_eq_of_lt (by omega)] at e
    omega
  · intro h
    apply BitVec.eq_of_toNat_eq
    rw [e, BitVec.toNat_ofNat, Nat.mod_eq_of_lt (by omega)]
    omega

theorem reg_eq (a b : BitVec 32) (i j : Nat) :
    ((a >>> i) &&& 0x1f#32 == (b >>> j) &&& 0x1f#32) = true ↔ a.extractLsb' i 5 = b.extractLsb' j 5 := by
  have e : ∀ (w : BitVec 32) (i : Nat), ((w >>> i) &&& 0x1f#32).toNat = (w.extractLsb' i 5).toNat := by
    intro w i
    rw [BitVec.toNat_and, BitVec.extractLsb'_toNat, BitVec.toNat_ushiftRight]
    exact Nat.and_two_pow_sub_one_eq_mod _ 5
  rw [beq_iff_eq]
  constructor
  · intro h; apply BitVec.eq_of_toNat_eq; rw [← e, ← e, h]
  · intro h; apply BitVec.eq_of_toNat_eq; rw [e, e, h]

end Nature.Reloc.Rv
