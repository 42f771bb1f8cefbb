import Verif.Reloc.RvGroups
/-! All relocations at once, and the alignment relocation. -/
set_option linter.unusedSimpArgs false
namespace Nature.Reloc.Rv

theorem addForm (w : BitVec 32) : (w &&& 0xfe00707f#32 == 0x33#32) = true ↔ opcode w = 0x33 ∧ funct3 w = 0 ∧ w.extractLsb' 25 7 = 0#7 := by
  have s1 : w &&& 0xfe00707f#32 = ((w.extractLsb' 25 7 ++ 0#25).setWidth 32) ||| (w &&& 0x707f#32) := by
    apply BitVec.eq_of_getLsbD_eq
    intro i hi
    have h : i = 0 ∨ i = 1 ∨ i = 2 ∨ i = 3 ∨ i = 4 ∨ i = 5 ∨ i = 6 ∨ i = 7 ∨ i = 8 ∨ i = 9 ∨ i = 10 ∨ i = 11 ∨ i = 12 ∨ i = 13 ∨ i = 14 ∨ i = 15 ∨ i = 16 ∨ i = 17 ∨ i = 18 ∨ i = 19 ∨ i = 20 ∨ i = 21 ∨ i = 22 ∨ i = 23 ∨ i = 24 ∨ i = 25 ∨ i = 26 ∨ i = 27 ∨ i = 28 ∨ i = 29 ∨ i = 30 ∨ i = 31 := by omega
    rcases h with rfl | rfl | rfl | rfl | rfl | rfl | rfl | rfl | rfl | rfl | rfl | rfl | rfl | rfl | rfl | rfl | rfl | rfl | rfl | rfl | rfl | rfl | rfl | rfl | rfl | rfl | rfl | rfl | rfl | rfl | rfl | rfl <;>
      simp only [BitVec.getLsbD_setWidth, BitVec.getLsbD_append, BitVec.getLsbD_extractLsb', BitVec.getLsbD_and, BitVec.getLsbD_or] <;> simp
  have e2 : ((w.extractLsb' 25 7 ++ 0#25).setWidth 32).toNat = (w.extractLsb' 25 7).toNat <<< 25 := by
    have := (w.extractLsb' 25 7).isLt
    rw [BitVec.toNat_setWidth, BitVec.toNat_append]
    simp only [BitVec.toNat_ofNat, Nat.zero_mod, Nat.or_zero, Nat.shiftLeft_eq]
    omega
  have lt : (w &&& 0x707f#32).toNat < 2 ^ 25 := by
    rw [BitVec.toNat_and]
    have := @Nat.and_le_right w.toNat (0x707f#32).toNat
    have : (0x707f#32).toNat = 28799 := rfl
    omega
  have e : (w &&& 0xfe00707f#32).toNat = (w.extractLsb' 25 7).toNat * 2 ^ 25 + (w &&& 0x707f#32).toNat := by
    rw [s1, BitVec.toNat_or, e2, ← Nat.shiftLeft_add_eq_or_of_lt lt, Nat.shiftLeft_eq]
  have k := op_funct w 0x33 (by omega)
  rw [beq_iff_eq, eq_iff_toNat] at k
  rw [← and_assoc, ← k, beq_iff_eq, eq_iff_toNat, eq_iff_toNat, e]
  show _ = 51 ↔ _ = 51 ∧ _ = 0
  omega

theorem r32_iff {v : Vals} {A : Int} {l : Bytes} (hv : v.Wide) (hA : Wide A) (new : Bytes) :
    (((integerAdd v.S A).toUnsigned 32).bind fun target => some (writeU32 l (BitVec.ofNat 32 target))) = some new ↔
      ∃ x : Nat, (x : Int) = v.S + A ∧ x < 2 ^ 32 ∧ new = writeU32 l (BitVec.ofNat 32 x) := by
  obtain ⟨e, ok⟩ := integerAdd_val hv.S hA
  have key := toUnsigned_iff ok.mag (integerAdd_normal v.S A) (bits := 32) (by omega) (by omega)
  rw [e] at key
  cases h : (integerAdd v.S A).toUnsigned 32 with
  | none =>
    simp only [Option.bind_none, reduceCtorEq, false_iff]
    intro ⟨x, h1, h2, _⟩
    have := (key x).2 ⟨h1, h2⟩
    rw [h] at this
    cases this
  | some x =>
    obtain ⟨h1, h2⟩ := (key x).1 h
    simp only [Option.bind_some, Option.some.injEq]
    constructor
    · intro h; exact ⟨x, h1, h2, h.symm⟩
    · rintro ⟨y, h3, _, rfl⟩
      have : y = x := by omega
      rw [this]

theorem apply_eq {type w : Nat} (v : Vals) (A : Int) (hi : Option Hi) (l : Bytes) (h : writeWidth type = some w) (new : Bytes) :
    apply type v A hi l = some new ↔ w ≤ l.length ∧ applyRiscv type v A hi l = some new := by
  unfold apply
  rw [h]
  simp only
  by_cases hl : l.length < w
  · simp only [hl, if_true, reduceCtorEq, false_iff]; omega
  · simp only [hl, if_false]
    constructor
    · intro h; exact ⟨by omega, h⟩
    · exact And.right

/-- What the code demands of the value: the range of the field, for parts of 32-bit values the signed 32-bit range. -/
def CodeRange (f : Field) (x : Int) : Prop :=
  match f with
  | .U | .pair | .I | .S => -2 ^ 31 ≤ x ∧ x < 2 ^ 31
  | f => f.Fits x

theorem assoc3 {P a b c : Prop} (h : P ↔ a ∧ b ∧ c) : P ↔ (a ∧ b) ∧ c := h.trans and_assoc.symm

theorem assoc4 {P a b c d e : Prop} (h : P ↔ a ∧ b) (h2 : b ↔ c ∧ d ∧ e) : P ↔ (a ∧ c ∧ d) ∧ e := by
  rw [h, h2, and_assoc, and_assoc]

theorem assoc5 {P a b c e : Prop} (h : P ↔ a ∧ b) (h2 : b ↔ c ∧ e) : P ↔ (a ∧ c) ∧ e := by
  rw [h, h2, and_assoc]

/-- Accepted exactly if the buffer is large enough, the form is right and the value in range; and then the place is right. -/
theorem apply_iff (t : Ty) {v : Vals} {A : Int} {hi : Option Hi} {l : Bytes} (hv : v.Wide) (hA : Wide A)
    (hh : ∀ h, hi = some h → h.Wide) :
    ((∃ new, apply t.code v A hi l = some new) ↔
      t.width ≤ l.length ∧ t.Form v A hi l ∧ CodeRange t.field (t.value v A hi) ∧
        ((t = .dtprel32 ∨ t = .dtprel64) → v.TLS + 0x800 < 2 ^ 64)) ∧
    ∀ new, apply t.code v A hi l = some new → t.field.Fits (t.value v A hi) → Good t.field l new (t.value v A hi) := by
  have fin : ∀ {w : Nat} (hw : writeWidth t.code = some w) {R : Prop} {res : Bytes}, t.width = w →
      (∀ new, applyRiscv t.code v A hi l = some new ↔ R ∧ new = res) →
      (R ↔ t.Form v A hi l ∧ CodeRange t.field (t.value v A hi) ∧ ((t = .dtprel32 ∨ t = .dtprel64) → v.TLS + 0x800 < 2 ^ 64)) →
      (w ≤ l.length → R → t.field.Fits (t.value v A hi) → Good t.field l res (t.value v A hi)) →
      ((∃ new, apply t.code v A hi l = some new) ↔
        t.width ≤ l.length ∧ t.Form v A hi l ∧ CodeRange t.field (t.value v A hi) ∧
          ((t = .dtprel32 ∨ t = .dtprel64) → v.TLS + 0x800 < 2 ^ 64)) ∧
      ∀ new, apply t.code v A hi l = some new → t.field.Fits (t.value v A hi) → Good t.field l new (t.value v A hi) := by
    intro w hw R res hwid h1 h2 h3
    constructor
    · rw [hwid]
      constructor
      · rintro ⟨new, h⟩
        rw [apply_eq v A hi l hw, h1] at h
        exact ⟨h.1, h2.1 h.2.1⟩
      · rintro ⟨hl, h⟩
        exact ⟨res, (apply_eq v A hi l hw res).2 ⟨hl, (h1 res).2 ⟨h2.2 h, rfl⟩⟩⟩
    · intro new h hf
      rw [apply_eq v A hi l hw, h1] at h
      obtain ⟨hl, hR, rfl⟩ := h
      exact h3 hl hR hf
  have up : ∀ {x : Int}, Field.Fits .U x → -2 ^ 31 - 2048 ≤ x ∧ x < 2 ^ 31 - 2048 := fun h => h
  cases t
  case none | relax =>
    exact fin (R := True) (res := l) rfl rfl (fun new => by simp [applyRiscv, Ty.code, eq_comm])
      (by simp [Ty.Form, CodeRange, Ty.field, Field.Fits]) (fun _ _ _ => ⟨trivial, rfl, rfl, rfl, trivial⟩)
  case r32 =>
    have key := r32_iff (l := l) hv hA
    constructor
    · constructor
      · rintro ⟨new, h⟩
        rw [apply_eq (w := 4) v A hi l rfl] at h
        obtain ⟨x, h1, h2, _⟩ := (key new).1 h.2
        refine ⟨h.1, trivial, ?_, by simp⟩
        show (0 : Int) ≤ v.S + A ∧ (v.S : Int) + A < 2 ^ 32
        omega
      · rintro ⟨hl, _, hr, _⟩
        have hr : (0 : Int) ≤ v.S + A ∧ (v.S : Int) + A < 2 ^ 32 := hr
        exact ⟨_, (apply_eq (w := 4) v A hi l rfl _).2 ⟨hl, (key _).2 ⟨(v.S + A).toNat, by omega, by omega, rfl⟩⟩⟩
    · intro new h hf
      rw [apply_eq (w := 4) v A hi l rfl] at h
      obtain ⟨x, h1, h2, rfl⟩ := (key new).1 h.2
      show Good (.unsigned 4) l _ (v.S + A)
      rw [← h1]
      exact good_unsigned4 h.1 h2
  case r64 | relative =>
    exact fin (w := 8) (R := True) (res := writeU64 l (addModulo _ A)) rfl rfl (fun new => by rw [true_and, eq_comm (a := new)]; exact Option.some_inj)
      (by simp [Ty.Form, CodeRange, Ty.field, Field.Fits]) (fun hl _ _ => good_wrapped8 hl _ _)
  case dtprel32 =>
    refine fin (w := 4) rfl rfl (fun new => assoc3 (tlsData_iff hv hA true false new)) ?_
      (fun hl h _ => good_signed4 hl h.2.1 h.2.2)
    simp [Ty.Form, CodeRange, Ty.field, Field.Fits, Ty.value, and_comm]
  case dtprel64 =>
    refine fin (w := 8) rfl rfl (fun new => assoc3 (tlsData_iff hv hA true true new)) ?_
      (fun hl h _ => good_signed8 hl h.2.1 h.2.2)
    simp [Ty.Form, CodeRange, Ty.field, Field.Fits, Ty.value, and_comm]
  case tprel32 =>
    refine fin (w := 4) rfl rfl (fun new => assoc3 (tlsData_iff hv hA false false new)) ?_
      (fun hl h _ => good_signed4 hl h.2.1 h.2.2)
    simp [Ty.Form, CodeRange, Ty.field, Field.Fits, Ty.value]
  case tprel64 =>
    refine fin (w := 8) rfl rfl (fun new => assoc3 (tlsData_iff hv hA false true new)) ?_
      (fun hl h _ => good_signed8 hl h.2.1 h.2.2)
    simp [Ty.Form, CodeRange, Ty.field, Field.Fits, Ty.value]
  case branch =>
    refine fin (w := 4) rfl rfl (fun new => assoc4 (pc_iff hv hA 16 new) (pcrel_branch _ new)) ?_ (fun hl h hf => good_B hl hf.1 hf.2.1 hf.2.2)
    simp only [Ty.Form, CodeRange, Ty.field, Field.Fits, Ty.value]
    simp; omega
  case jal =>
    refine fin (w := 4) rfl rfl (fun new => assoc4 (pc_iff hv hA 17 new) (pcrel_jal _ new)) ?_ (fun hl h hf => good_J hl hf.1 hf.2.1 hf.2.2)
    simp only [Ty.Form, CodeRange, Ty.field, Field.Fits, Ty.value]
    simp; omega
  case rvcBranch =>
    refine fin (w := 2) rfl rfl (fun new => assoc4 (pc_iff hv hA 44 new) (pcrel_cb _ new)) ?_ (fun hl h hf => good_CB hl hf.1 hf.2.1 hf.2.2)
    simp only [Ty.Form, CodeRange, Ty.field, Field.Fits, Ty.value]
    simp
    intro _ _ _ _ _
    omega
  case rvcJump =>
    refine fin (w := 2) rfl rfl (fun new => assoc4 (pc_iff hv hA 45 new) (pcrel_cj _ new)) ?_ (fun hl h hf => good_CJ hl hf.1 hf.2.1 hf.2.2)
    simp only [Ty.Form, CodeRange, Ty.field, Field.Fits, Ty.value]
    simp
    intro _ _ _ _ _
    omega
  case call =>
    refine fin (w := 8) rfl rfl (fun new => assoc5 (pc_iff hv hA 18 new) (call_iff 18 _ new)) ?_
      (fun hl h hf => good_pair hl hf.1 hf.2)
    simp only [Ty.Form, CodeRange, Ty.field, Field.Fits, Ty.value, true_and]
    simp
    intro _ _ _
    omega
  case callPlt =>
    refine fin (w := 8) rfl rfl (fun new => assoc5 (pc_iff hv hA 19 new) (call_iff 19 _ new)) ?_
      (fun hl h hf => good_pair hl hf.1 hf.2)
    simp only [Ty.Form, CodeRange, Ty.field, Field.Fits, Ty.value, true_and]
    simp
    intro _ _ _
    omega
  case pcrelHi20 =>
    refine fin (w := 4) rfl rfl (fun new => assoc4 (pc_iff hv hA 23 new) (pcrel_hi _ new)) ?_ (fun hl h hf => good_U hl hf.1 hf.2)
    simp only [Ty.Form, CodeRange, Ty.field, Field.Fits, Ty.value]
    simp; omega
  case pcrel32 =>
    refine fin (w := 4) rfl rfl (fun new => assoc5 (pc_iff hv hA 57 new) (pcrel_32 _ new)) ?_ (fun hl h hf => good_signed4 hl hf.1 hf.2)
    simp only [Ty.Form, CodeRange, Ty.field, Field.Fits, Ty.value]
    simp; omega
  case gotHi20 | tlsGotHi20 | tlsGdHi20 =>
    refine fin (w := 4) rfl rfl (fun new => assoc3 (gotHi_iff hv hA new)) ?_ (fun hl h hf => good_U hl hf.1 hf.2)
    simp only [Ty.Form, CodeRange, Ty.field, Field.Fits, Ty.value]
    simp; omega
  case pcrelLo12I =>
    have key := fun new => pcrelLo_iff (v := v) (A := A) (l := l) hh false new
    constructor
    · constructor
      · rintro ⟨new, h⟩
        rw [apply_eq (w := 4) v A hi l rfl] at h
        obtain ⟨h0, h', rfl, h1, h2, h3, h4, _⟩ := (key new).1 h.2
        exact ⟨h.1, ⟨h4, h0, h', rfl, h1, h2⟩, h3, by simp⟩
      · rintro ⟨hl, ⟨h4, h0, h', rfl, h1, h2⟩, h3, _⟩
        exact ⟨_, (apply_eq (w := 4) v A _ l rfl _).2 ⟨hl, (key _).2 ⟨h0, h', rfl, h1, h2, h3, h4, rfl⟩⟩⟩
    · intro new h hf
      rw [apply_eq (w := 4) v A hi l rfl] at h
      obtain ⟨h0, h', rfl, h1, h2, h3, h4, rfl⟩ := (key new).1 h.2
      exact good_I h.1 _
  case pcrelLo12S =>
    have key := fun new => pcrelLo_iff (v := v) (A := A) (l := l) hh true new
    constructor
    · constructor
      · rintro ⟨new, h⟩
        rw [apply_eq (w := 4) v A hi l rfl] at h
        obtain ⟨h0, h', rfl, h1, h2, h3, h4, _⟩ := (key new).1 h.2
        exact ⟨h.1, ⟨h4, h0, h', rfl, h1, h2⟩, h3, by simp⟩
      · rintro ⟨hl, ⟨h4, h0, h', rfl, h1, h2⟩, h3, _⟩
        exact ⟨_, (apply_eq (w := 4) v A _ l rfl _).2 ⟨hl, (key _).2 ⟨h0, h', rfl, h1, h2, h3, h4, rfl⟩⟩⟩
    · intro new h hf
      rw [apply_eq (w := 4) v A hi l rfl] at h
      obtain ⟨h0, h', rfl, h1, h2, h3, h4, rfl⟩ := (key new).1 h.2
      exact good_S h.1 _
  case hi20 =>
    refine fin (w := 4) rfl rfl (fun new => assoc3 (absolute_hi (base := 0) hv hA (by omega) new)) ?_
      (fun hl h hf => ?_)
    · simp only [Ty.Form, CodeRange, Ty.field, Field.Fits, Ty.value]
      simp; omega
    · rw [show (v.S : Int) + A - ((0 : Nat) : Int) = v.S + A by simp]
      exact good_U hl hf.1 hf.2
  case tprelHi20 =>
    refine fin (w := 4) rfl rfl (fun new => assoc3 (absolute_hi (base := v.TP) hv hA hv.TP new)) ?_
      (fun hl h hf => good_U hl hf.1 hf.2)
    simp only [Ty.Form, CodeRange, Ty.field, Field.Fits, Ty.value]
    simp; omega
  case lo12I =>
    refine fin (w := 4) rfl rfl (fun new => assoc3 (absolute_lo (base := 0) (part := 1) hv hA (by omega) (by omega) new)) ?_
      (fun hl h hf => ?_)
    · simp only [Ty.Form, CodeRange, Ty.field, Field.Fits, Ty.value]
      simp [and_comm]
    · simp
      exact good_I hl _
  case lo12S =>
    refine fin (w := 4) rfl rfl (fun new => assoc3 (absolute_lo (base := 0) (part := 2) hv hA (by omega) (by omega) new)) ?_
      (fun hl h hf => ?_)
    · simp only [Ty.Form, CodeRange, Ty.field, Field.Fits, Ty.value]
      simp [and_comm]
    · simp
      exact good_S hl _
  case tprelLo12I =>
    refine fin (w := 4) rfl rfl (fun new => assoc3 (absolute_lo (base := v.TP) (part := 1) hv hA hv.TP (by omega) new)) ?_
      (fun hl h hf => good_I hl _)
    simp only [Ty.Form, CodeRange, Ty.field, Field.Fits, Ty.value]
    simp [and_comm]
  case tprelLo12S =>
    refine fin (w := 4) rfl rfl (fun new => assoc3 (absolute_lo (base := v.TP) (part := 2) hv hA hv.TP (by omega) new)) ?_
      (fun hl h hf => good_S hl _)
    simp only [Ty.Form, CodeRange, Ty.field, Field.Fits, Ty.value]
    simp [and_comm]
  case tprelAdd =>
    refine fin (w := 4) (R := (insn l &&& 0xfe00707f#32 == 0x33#32) = true) (res := l) rfl rfl (fun new => by
      rw [show applyRiscv Ty.tprelAdd.code v A hi l = if require l 0xfe00707f#32 0x33#32 then some l else none from rfl]
      unfold require
      rw [readU32_eq]
      cases (insn l &&& 0xfe00707f#32 == 0x33#32) <;> simp [eq_comm]) ?_ (fun _ _ _ => ⟨trivial, rfl, rfl, rfl, trivial⟩)
    rw [addForm]
    simp [Ty.Form, CodeRange, Ty.field, Field.Fits]
  case sub6 =>
    exact fin (w := 1) (R := True) (res := writeU8 l ((l.getD 0 0#8 &&& 0xc0#8) ||| ((l.getD 0 0#8 - (addModulo v.S A).setWidth 8) &&& 0x3f#8))) rfl rfl
      (fun new => by rw [true_and, eq_comm (a := new)]; exact Option.some_inj)
      (by simp [Ty.Form, CodeRange, Ty.field, Field.Fits]) (fun hl _ _ => good_minusSix hl _ _)
  case set6 =>
    exact fin (w := 1) (R := True) (res := writeU8 l ((l.getD 0 0#8 &&& 0xc0#8) ||| ((addModulo v.S A).setWidth 8 &&& 0x3f#8))) rfl rfl
      (fun new => by rw [true_and, eq_comm (a := new)]; exact Option.some_inj)
      (by simp [Ty.Form, CodeRange, Ty.field, Field.Fits]) (fun hl _ _ => good_six hl _ _)
  case set8 =>
    exact fin (w := 1) (R := True) (res := writeU8 l ((addModulo v.S A).setWidth 8)) rfl rfl
      (fun new => by rw [true_and, eq_comm (a := new)]; exact Option.some_inj)
      (by simp [Ty.Form, CodeRange, Ty.field, Field.Fits]) (fun hl _ _ => good_wrapped1 hl _ _)
  case set16 =>
    exact fin (w := 2) (R := True) (res := writeU16 l ((addModulo v.S A).setWidth 16)) rfl rfl
      (fun new => by rw [true_and, eq_comm (a := new)]; exact Option.some_inj)
      (by simp [Ty.Form, CodeRange, Ty.field, Field.Fits]) (fun hl _ _ => good_wrapped2 hl _ _)
  case set32 =>
    exact fin (w := 4) (R := True) (res := writeU32 l ((addModulo v.S A).setWidth 32)) rfl rfl
      (fun new => by rw [true_and, eq_comm (a := new)]; exact Option.some_inj)
      (by simp [Ty.Form, CodeRange, Ty.field, Field.Fits]) (fun hl _ _ => good_wrapped4 hl _ _)
  case add8 =>
    by_cases hl : 1 ≤ l.length
    · obtain ⟨res, e, g⟩ := good_addSub (n := 1) (by omega) hl v A false
      exact fin (w := 1) (R := True) (res := res) rfl rfl
        (fun new => by rw [show applyRiscv Ty.add8.code v A hi l = addSub v A l 1 false from rfl, e, true_and, eq_comm (a := new)]; exact Option.some_inj)
        (by simp [Ty.Form, CodeRange, Ty.field, Field.Fits]) (fun _ _ _ => g)
    · have no : ∀ new, ¬ apply Ty.add8.code v A hi l = some new := by
        intro new h
        rw [apply_eq (w := 1) v A hi l rfl] at h
        exact hl h.1
      exact ⟨⟨fun ⟨new, h⟩ => absurd h (no new), fun h => absurd h.1 hl⟩, fun new h => absurd h (no new)⟩
  case add16 =>
    by_cases hl : 2 ≤ l.length
    · obtain ⟨res, e, g⟩ := good_addSub (n := 2) (by omega) hl v A false
      exact fin (w := 2) (R := True) (res := res) rfl rfl
        (fun new => by rw [show applyRiscv Ty.add16.code v A hi l = addSub v A l 2 false from rfl, e, true_and, eq_comm (a := new)]; exact Option.some_inj)
        (by simp [Ty.Form, CodeRange, Ty.field, Field.Fits]) (fun _ _ _ => g)
    · have no : ∀ new, ¬ apply Ty.add16.code v A hi l = some new := by
        intro new h
        rw [apply_eq (w := 2) v A hi l rfl] at h
        exact hl h.1
      exact ⟨⟨fun ⟨new, h⟩ => absurd h (no new), fun h => absurd h.1 hl⟩, fun new h => absurd h (no new)⟩
  case add32 =>
    by_cases hl : 4 ≤ l.length
    · obtain ⟨res, e, g⟩ := good_addSub (n := 4) (by omega) hl v A false
      exact fin (w := 4) (R := True) (res := res) rfl rfl
        (fun new => by rw [show applyRiscv Ty.add32.code v A hi l = addSub v A l 4 false from rfl, e, true_and, eq_comm (a := new)]; exact Option.some_inj)
        (by simp [Ty.Form, CodeRange, Ty.field, Field.Fits]) (fun _ _ _ => g)
    · have no : ∀ new, ¬ apply Ty.add32.code v A hi l = some new := by
        intro new h
        rw [apply_eq (w := 4) v A hi l rfl] at h
        exact hl h.1
      exact ⟨⟨fun ⟨new, h⟩ => absurd h (no new), fun h => absurd h.1 hl⟩, fun new h => absurd h (no new)⟩
  case add64 =>
    by_cases hl : 8 ≤ l.length
    · obtain ⟨res, e, g⟩ := good_addSub (n := 8) (by omega) hl v A false
      exact fin (w := 8) (R := True) (res := res) rfl rfl
        (fun new => by rw [show applyRiscv Ty.add64.code v A hi l = addSub v A l 8 false from rfl, e, true_and, eq_comm (a := new)]; exact Option.some_inj)
        (by simp [Ty.Form, CodeRange, Ty.field, Field.Fits]) (fun _ _ _ => g)
    · have no : ∀ new, ¬ apply Ty.add64.code v A hi l = some new := by
        intro new h
        rw [apply_eq (w := 8) v A hi l rfl] at h
        exact hl h.1
      exact ⟨⟨fun ⟨new, h⟩ => absurd h (no new), fun h => absurd h.1 hl⟩, fun new h => absurd h (no new)⟩
  case sub8 =>
    by_cases hl : 1 ≤ l.length
    · obtain ⟨res, e, g⟩ := good_addSub (n := 1) (by omega) hl v A true
      exact fin (w := 1) (R := True) (res := res) rfl rfl
        (fun new => by rw [show applyRiscv Ty.sub8.code v A hi l = addSub v A l 1 true from rfl, e, true_and, eq_comm (a := new)]; exact Option.some_inj)
        (by simp [Ty.Form, CodeRange, Ty.field, Field.Fits]) (fun _ _ _ => g)
    · have no : ∀ new, ¬ apply Ty.sub8.code v A hi l = some new := by
        intro new h
        rw [apply_eq (w := 1) v A hi l rfl] at h
        exact hl h.1
      exact ⟨⟨fun ⟨new, h⟩ => absurd h (no new), fun h => absurd h.1 hl⟩, fun new h => absurd h (no new)⟩
  case sub16 =>
    by_cases hl : 2 ≤ l.length
    · obtain ⟨res, e, g⟩ := good_addSub (n := 2) (by omega) hl v A true
      exact fin (w := 2) (R := True) (res := res) rfl rfl
        (fun new => by rw [show applyRiscv Ty.sub16.code v A hi l = addSub v A l 2 true from rfl, e, true_and, eq_comm (a := new)]; exact Option.some_inj)
        (by simp [Ty.Form, CodeRange, Ty.field, Field.Fits]) (fun _ _ _ => g)
    · have no : ∀ new, ¬ apply Ty.sub16.code v A hi l = some new := by
        intro new h
        rw [apply_eq (w := 2) v A hi l rfl] at h
        exact hl h.1
      exact ⟨⟨fun ⟨new, h⟩ => absurd h (no new), fun h => absurd h.1 hl⟩, fun new h => absurd h (no new)⟩
  case sub32 =>
    by_cases hl : 4 ≤ l.length
    · obtain ⟨res, e, g⟩ := good_addSub (n := 4) (by omega) hl v A true
      exact fin (w := 4) (R := True) (res := res) rfl rfl
        (fun new => by rw [show applyRiscv Ty.sub32.code v A hi l = addSub v A l 4 true from rfl, e, true_and, eq_comm (a := new)]; exact Option.some_inj)
        (by simp [Ty.Form, CodeRange, Ty.field, Field.Fits]) (fun _ _ _ => g)
    · have no : ∀ new, ¬ apply Ty.sub32.code v A hi l = some new := by
        intro new h
        rw [apply_eq (w := 4) v A hi l rfl] at h
        exact hl h.1
      exact ⟨⟨fun ⟨new, h⟩ => absurd h (no new), fun h => absurd h.1 hl⟩, fun new h => absurd h (no new)⟩
  case sub64 =>
    by_cases hl : 8 ≤ l.length
    · obtain ⟨res, e, g⟩ := good_addSub (n := 8) (by omega) hl v A true
      exact fin (w := 8) (R := True) (res := res) rfl rfl
        (fun new => by rw [show applyRiscv Ty.sub64.code v A hi l = addSub v A l 8 true from rfl, e, true_and, eq_comm (a := new)]; exact Option.some_inj)
        (by simp [Ty.Form, CodeRange, Ty.field, Field.Fits]) (fun _ _ _ => g)
    · have no : ∀ new, ¬ apply Ty.sub64.code v A hi l = some new := by
        intro new h
        rw [apply_eq (w := 8) v A hi l rfl] at h
        exact hl h.1
      exact ⟨⟨fun ⟨new, h⟩ => absurd h (no new), fun h => absurd h.1 hl⟩, fun new h => absurd h (no new)⟩

/-! ### Alignment -/

theorem alignmentAbove_spec {padding : Nat} (hp : 0 < padding) : ∀ (fuel k : Nat), 2 ^ k ≤ 2 * padding → padding < 2 ^ (k + fuel) →
    PowAbove padding (alignmentAbove padding fuel (2 ^ k))
  | 0, k, h1, h2 => ⟨k, rfl, h2, h1⟩
  | fuel + 1, k, h1, h2 => by
    unfold alignmentAbove
    split
    · rename_i h
      rw [← Nat.pow_succ]
      exact alignmentAbove_spec hp fuel (k + 1) (by rw [Nat.pow_succ]; omega) (by rw [show k + 1 + fuel = k + (fuel + 1) by omega]; exact h2)
    · rename_i h
      exact ⟨k, rfl, by omega, h1⟩

theorem powAbove_unique {a p q : Nat} (h1 : PowAbove a p) (h2 : PowAbove a q) : p = q := by
  obtain ⟨i, rfl, a1, a2⟩ := h1
  obtain ⟨j, rfl, b1, b2⟩ := h2
  have hij : ¬ i < j := by
    intro h
    have : 2 ^ (i + 1) ≤ 2 ^ j := Nat.pow_le_pow_right (by omega) h
    rw [Nat.pow_succ] at this
    omega
  have hji : ¬ j < i := by
    intro h
    have : 2 ^ (j + 1) ≤ 2 ^ i := Nat.pow_le_pow_right (by omega) h
    rw [Nat.pow_succ] at this
    omega
  rw [show i = j by omega]

theorem take_nop {l : Bytes} {n : Nat} (hn : 4 ≤ n) (hl : 4 ≤ l.length) (h : insn l = 0x13#32) :
    l.take n = 0x13#8 :: 0#8 :: 0#8 :: 0#8 :: (l.drop 4).take (n - 4) := by
  match l, hl with
  | a :: b :: c :: d :: l, _ =>
    obtain ⟨m, rfl⟩ : ∃ m, n = m + 4 := ⟨n - 4, by omega⟩
    have e : leNat 4 (a :: b :: c :: d :: l) = 0x13 := by
      have := congrArg BitVec.toNat h
      unfold insn at this
      rw [BitVec.toNat_ofNat, Nat.mod_eq_of_lt (leNat_lt 4 _)] at this
      exact this
    simp only [leNat] at e
    have := a.isLt
    have := b.isLt
    have := c.isLt
    have := d.isLt
    have ea : a = 0x13#8 := BitVec.eq_of_toNat_eq (by show a.toNat = 0x13; omega)
    have eb : b = 0#8 := BitVec.eq_of_toNat_eq (by show b.toNat = 0; omega)
    have ec : c = 0#8 := BitVec.eq_of_toNat_eq (by show c.toNat = 0; omega)
    have ed : d = 0#8 := BitVec.eq_of_toNat_eq (by show d.toNat = 0; omega)
    subst ea eb ec ed
    simp

theorem take_cnop {l : Bytes} {n : Nat} (hn : 2 ≤ n) (hl : 2 ≤ l.length) (h : cinsn l = 1#16) :
    l.take n = 1#8 :: 0#8 :: (l.drop 2).take (n - 2) := by
  match l, hl with
  | a :: b :: l, _ =>
    obtain ⟨m, rfl⟩ : ∃ m, n = m + 2 := ⟨n - 2, by omega⟩
    have e : leNat 2 (a :: b :: l) = 1 := by
      have := congrArg BitVec.toNat h
      unfold cinsn at this
      rw [BitVec.toNat_ofNat, Nat.mod_eq_of_lt (leNat_lt 2 _)] at this
      exact this
    simp only [leNat] at e
    have := a.isLt
    have := b.isLt
    have ea : a = 1#8 := BitVec.eq_of_toNat_eq (by show a.toNat = 1; omega)
    have eb : b = 0#8 := BitVec.eq_of_toNat_eq (by show b.toNat = 0; omega)
    subst ea eb
    simp

theorem nopLoop_sound : ∀ (fuel n : Nat) (l : Bytes), n ≤ l.length → nopLoop l fuel n = true → Nops (l.take n)
  | 0, n, l, _, h => by
    simp [nopLoop] at h
    subst h
    exact .nil
  | fuel + 1, n, l, hl, h => by
    unfold nopLoop at h
    split at h
    · subst_vars; exact .nil
    · split at h
      · rename_i h4
        simp only [Bool.and_eq_true, decide_eq_true_eq, beq_iff_eq, readU32_eq] at h4
        rw [take_nop h4.1 (by omega) h4.2]
        exact .nop (nopLoop_sound fuel (n - 4) (l.drop 4) (by simp; omega) h)
      · split at h
        · rename_i h2
          simp only [Bool.and_eq_true, decide_eq_true_eq, beq_iff_eq, readU16_eq] at h2
          rw [take_cnop h2.1 (by omega) h2.2]
          exact .cnop (nopLoop_sound fuel (n - 2) (l.drop 2) (by simp; omega) h)
        · cases h

theorem nops_complete {q : Bytes} (h : Nops q) : ∀ (fuel n : Nat) (l : Bytes), n ≤ fuel → n ≤ l.length → l.take n = q → nopLoop l fuel n = true := by
  induction h with
  | nil =>
    intro fuel n l hf hl e
    have : n = 0 := by
      have := congrArg List.length e
      rw [List.length_take, Nat.min_eq_left hl] at this
      exact this
    subst this
    cases fuel <;> simp [nopLoop]
  | @nop r _ ih =>
    intro fuel n l hf hl e
    have len := congrArg List.length e
    simp only [List.length_take, List.length_cons] at len
    match l, hl with
    | a :: b :: c :: d :: l, hl =>
      obtain ⟨m, rfl⟩ : ∃ m, n = m + 4 := ⟨n - 4, by omega⟩
      obtain ⟨f, rfl⟩ : ∃ f, fuel = f + 1 := ⟨fuel - 1, by omega⟩
      simp only [List.take_succ_cons, List.cons.injEq] at e
      obtain ⟨rfl, rfl, rfl, rfl, e⟩ := e
      unfold nopLoop
      rw [if_neg (by omega)]
      have : readU32 (0x13#8 :: 0#8 :: 0#8 :: 0#8 :: l) = 0x13#32 := by simp [readU32]
      rw [this]
      simp only [Nat.le_add_left, decide_true, beq_self_eq_true, Bool.and_self, if_true]
      exact ih f (m + 4 - 4) l (by omega) (by simp at hl ⊢; omega) e
    | [], hl => simp at len
    | [_], hl => simp at hl len; omega
    | [_, _], hl => simp at hl len; omega
    | [_, _, _], hl => simp at hl len; omega
  | @cnop r _ ih =>
    intro fuel n l hf hl e
    have len := congrArg List.length e
    simp only [List.length_take, List.length_cons] at len
    match l, hl with
    | a :: b :: l, hl =>
      obtain ⟨m, rfl⟩ : ∃ m, n = m + 2 := ⟨n - 2, by omega⟩
      obtain ⟨f, rfl⟩ : ∃ f, fuel = f + 1 := ⟨fuel - 1, by omega⟩
      simp only [List.take_succ_cons, List.cons.injEq] at e
      obtain ⟨rfl, rfl, e⟩ := e
      unfold nopLoop
      rw [if_neg (by omega)]
      have n4 : (readU32 (1#8 :: 0#8 :: l) == 0x13#32) = false := by
        rw [readU32_eq]
        apply beq_eq_false_iff_ne.2
        intro h
        have := congrArg BitVec.toNat h
        unfold insn at this
        rw [BitVec.toNat_ofNat, Nat.mod_eq_of_lt (leNat_lt 4 _)] at this
        simp only [leNat] at this
        simp at this
        omega
      have : readU16 (1#8 :: 0#8 :: l) = 1#16 := by simp [readU16]
      rw [n4, this]
      simp only [Bool.and_false, Bool.false_eq_true, if_false, Nat.le_add_left, decide_true, beq_self_eq_true, Bool.and_self, if_true]
      exact ih f (m + 2 - 2) l (by omega) (by simp at hl ⊢; omega) e
    | [], hl => simp at len
    | [_], hl => simp at hl len; omega

theorem nops_even {q : Bytes} (h : Nops q) : q.length % 2 = 0 := by
  induction h with
  | nil => rfl
  | nop _ ih => simp only [List.length_cons]; omega
  | cnop _ ih => simp only [List.length_cons]; omega

theorem align_iff {v : Vals} {A : Int} {hi : Option Hi} {l new : Bytes} (hA : Wide A) :
    apply 43 v A hi l = some new ↔ new = l ∧ 0 ≤ A ∧ A.toNat ≤ l.length ∧
      (A ≠ 0 → v.P + A.toNat < 2 ^ 64 ∧ (∀ p, PowAbove A.toNat p → (v.P + A.toNat) % p = 0) ∧ Nops (l.take A.toNat)) := by
  rw [apply_eq (w := 0) v A hi l rfl]
  simp only [Nat.zero_le, true_and]
  show applyAlign v A l = some new ↔ _
  unfold applyAlign
  by_cases h0 : A < 0
  · rw [if_pos h0]
    simp only [reduceCtorEq, false_iff]
    omega
  rw [if_neg h0]
  obtain ⟨n, rfl⟩ : ∃ n : Nat, A = n := ⟨A.toNat, by omega⟩
  obtain ⟨_, hA⟩ := hA
  simp only [Int.toNat_natCast]
  by_cases hl : l.length < n
  · rw [if_pos hl]
    simp only [reduceCtorEq, false_iff]
    omega
  rw [if_neg hl]
  by_cases hz : n = 0
  · subst hz
    simp [eq_comm]
  rw [if_neg hz]
  have pa : PowAbove n (alignmentAbove n 64 1) := alignmentAbove_spec (by omega) 64 0 (by omega) (by omega)
  have hz' : ((n : Int) ≠ 0) := by omega
  by_cases hp : n % 2 = 0
  · rw [if_neg (by omega)]
    by_cases hr : 2 ^ 64 - 1 - n < v.P ∨ (v.P + n) % alignmentAbove n 64 1 ≠ 0
    · rw [if_pos hr]
      simp only [reduceCtorEq, false_iff]
      rintro ⟨_, _, _, h⟩
      obtain ⟨h1, h2, _⟩ := h hz'
      have := h2 _ pa
      omega
    · rw [if_neg hr]
      have hr1 : v.P + n < 2 ^ 64 := by omega
      have hr2 : (v.P + n) % alignmentAbove n 64 1 = 0 := by
        apply Classical.byContradiction
        intro h; exact hr (Or.inr h)
      constructor
      · intro h
        split at h
        · rename_i hn
          cases h
          exact ⟨rfl, by omega, by omega, fun _ => ⟨hr1, fun p hp => by rw [powAbove_unique hp pa]; exact hr2, nopLoop_sound _ _ _ (by omega) hn⟩⟩
        · cases h
      · rintro ⟨rfl, _, _, h⟩
        obtain ⟨_, _, h3⟩ := h hz'
        rw [if_pos (nops_complete h3 _ _ _ (by omega) (by omega) rfl)]
  · rw [if_pos hp]
    simp only [reduceCtorEq, false_iff]
    rintro ⟨_, _, _, h⟩
    obtain ⟨_, _, h3⟩ := h hz'
    have := nops_even h3
    rw [List.length_take, Nat.min_eq_left (by omega)] at this
    omega

end Nature.Reloc.Rv
