import Verif.Reloc.ArmFields
import Verif.Reloc.RvFields
/-! When an arm64 relocation is applied, and what it shows then. -/
namespace Nature.Reloc.Arm

/-- The outcome `o` is a success exactly if `R` holds, and then satisfies `G`. -/
def Out (o : Option Bytes) (R : Prop) (G : Bytes → Prop) : Prop :=
  match o with
  | none => ¬ R
  | some new => R ∧ G new

theorem Out.mono {o : Option Bytes} {R R' : Prop} {G G' : Bytes → Prop} (h : Out o R G) (hr : R ↔ R') (hg : ∀ n, R → G n → G' n) :
    Out o R' G' := by
  cases o with
  | none => exact fun h' => h (hr.2 h')
  | some n => exact ⟨hr.1 h.1, hg n h.1 h.2⟩

theorem Out.ite {c : Prop} [Decidable c] {o : Option Bytes} {R : Prop} {G : Bytes → Prop} (h : c → Out o R G) :
    Out (if c then o else none) (c ∧ R) G := by
  by_cases hc : c
  · rw [if_pos hc]; exact (h hc).mono ⟨fun r => ⟨hc, r⟩, And.right⟩ (fun _ _ g => g)
  · rw [if_neg hc]; exact fun h => hc h.1

theorem Out.ite_not {c : Prop} [Decidable c] {o : Option Bytes} {R : Prop} {G : Bytes → Prop} (h : ¬ c → Out o R G) :
    Out (if c then none else o) (¬ c ∧ R) G := by
  by_cases hc : c
  · rw [if_pos hc]; exact fun h => h.1 hc
  · rw [if_neg hc]; exact (h hc).mono ⟨fun r => ⟨hc, r⟩, And.right⟩ (fun _ _ g => g)

theorem Out.ok {n : Bytes} {G : Bytes → Prop} (h : G n) : Out (some n) True G := ⟨trivial, h⟩

theorem Out.bind_expr {base s bits : Nat} {a : Int} (hb : base < 2 ^ 64) (ha : Wide a) (hs : s < 2 ^ 64)
    (h0 : 0 < bits) (h64 : bits ≤ 64) {f : Int → Option Bytes} {R : Prop} {G : Bytes → Prop}
    (h : -2 ^ (bits - 1) ≤ base + a - s → base + a - s < 2 ^ (bits - 1) → Out (f (base + a - s)) R G) :
    Out ((expressionSigned base a s bits).bind f) ((-2 ^ (bits - 1) ≤ base + a - s ∧ base + a - s < 2 ^ (bits - 1)) ∧ R) G := by
  have key := expressionSigned_iff hb ha hs h0 h64
  cases e : expressionSigned base a s bits with
  | none =>
    rintro ⟨h, _⟩
    have := (key _).2 ⟨rfl, h⟩
    rw [e] at this
    cases this
  | some x =>
    obtain ⟨rfl, h1, h2⟩ := (key x).1 e
    exact (h h1 h2).mono ⟨fun r => ⟨⟨h1, h2⟩, r⟩, And.right⟩ (fun _ _ g => g)

/-- The same for the unsigned conversion. -/
theorem Out.bind_unsigned {v : RInt} {bits : Nat} (hv : v.mag < 2 ^ 64) (hn : v.normalize = v) (hb : 0 < bits) (hb2 : bits ≤ 64)
    {f : Nat → Option Bytes} {R : Prop} {G : Bytes → Prop}
    (h : ∀ n : Nat, (n : Int) = v.val → n < 2 ^ bits → Out (f n) R G) :
    Out ((v.toUnsigned bits).bind f) ((0 ≤ v.val ∧ v.val < 2 ^ bits) ∧ R) G := by
  have key := toUnsigned_iff hv hn hb hb2
  have c : ((2 ^ bits : Nat) : Int) = 2 ^ bits := by simp
  cases e : v.toUnsigned bits with
  | none =>
    rintro ⟨⟨h1, h2⟩, _⟩
    have := (key v.val.toNat).2 ⟨by omega, by omega⟩
    rw [e] at this
    cases this
  | some x =>
    obtain ⟨h1, h2⟩ := (key x).1 e
    exact (h x h1 h2).mono ⟨fun r => ⟨⟨by omega, by omega⟩, r⟩, And.right⟩ (fun _ _ g => g)

theorem patch_insn {α : Type} (l : Bytes) (f : BitVec 32 → α → BitVec 32) (a : α) : insn (patch l f a) = f (insn l) a := by
  unfold patch
  rw [insn_writeU32, readU32_eq]

theorem patch_length {α : Type} {l : Bytes} (h : 4 ≤ l.length) (f : BitVec 32 → α → BitVec 32) (a : α) : (patch l f a).length = l.length :=
  length_writeU32 h _

theorem patch_drop {α : Type} (l : Bytes) (f : BitVec 32 → α → BitVec 32) (a : α) : (patch l f a).drop 4 = l.drop 4 := drop_writeU32 _ _

/-- The place shows the value and nothing else changed. -/
def Good (f : Field) (old new : Bytes) (x : Int) : Prop := f.Shows old new x ∧ f.Keeps old new

theorem good_adr {l : Bytes} (h : 4 ≤ l.length) {x : Int} (h1 : -2 ^ 20 ≤ x) (h2 : x < 2 ^ 20) : Good .imm21 l (patch l writeAdr x) x := by
  refine ⟨?_, patch_length h _ _, patch_drop _ _ _, ?_⟩
  · show adrImm _ = _
    rw [patch_insn]
    unfold adrImm
    rw [bits_adr, Rv.ofInt_setWidth (by omega), Rv.toInt_ofInt_fits (by omega) h1 h2]
  · show _ ∧ _ ∧ _
    rw [patch_insn, keep_adr0, keep_adr24, keep_adr31]
    exact ⟨rfl, rfl, rfl⟩

theorem good_page {l : Bytes} (h : 4 ≤ l.length) {x : Int} (h1 : -2 ^ 20 ≤ x) (h2 : x < 2 ^ 20) :
    Good .page21 l (patch l writeAdr x) (x * 4096) := by
  obtain ⟨a, b⟩ := good_adr h h1 h2
  exact ⟨congrArg (· * (4096 : Int)) a, b⟩

theorem tdiv4 {x : Int} (h : x % 4 = 0) : x.tdiv 4 * 4 = x := Int.tdiv_mul_cancel (Int.dvd_of_emod_eq_zero h)

theorem good_26 {l : Bytes} (h : 4 ≤ l.length) {x : Int} (h0 : x % 4 = 0) (h1 : -2 ^ 27 ≤ x) (h2 : x < 2 ^ 27) :
    Good .imm26 l (patch l writeBranch26 x) x := by
  have t := tdiv4 h0
  refine ⟨?_, patch_length h _ _, patch_drop _ _ _, ?_⟩
  · show BitVec.toInt _ * 4 = _
    rw [patch_insn, bits_Branch26, Rv.ofInt_setWidth (by omega), Rv.toInt_ofInt_fits (by omega) (by omega) (by omega), t]
  · show _ = _
    rw [patch_insn, keep_Branch26_26]

theorem good_19 {l : Bytes} (h : 4 ≤ l.length) {x : Int} (h0 : x % 4 = 0) (h1 : -2 ^ 20 ≤ x) (h2 : x < 2 ^ 20) :
    Good .imm19 l (patch l writeImm19 x) x := by
  have t := tdiv4 h0
  refine ⟨?_, patch_length h _ _, patch_drop _ _ _, ?_⟩
  · show BitVec.toInt _ * 4 = _
    rw [patch_insn, bits_Imm19, Rv.ofInt_setWidth (by omega), Rv.toInt_ofInt_fits (by omega) (by omega) (by omega), t]
  · show _ ∧ _
    rw [patch_insn, keep_Imm19_0, keep_Imm19_24]
    exact ⟨rfl, rfl⟩

theorem good_14 {l : Bytes} (h : 4 ≤ l.length) {x : Int} (h0 : x % 4 = 0) (h1 : -2 ^ 15 ≤ x) (h2 : x < 2 ^ 15) :
    Good .imm14 l (patch l writeImm14 x) x := by
  have t := tdiv4 h0
  refine ⟨?_, patch_length h _ _, patch_drop _ _ _, ?_⟩
  · show BitVec.toInt _ * 4 = _
    rw [patch_insn, bits_Imm14, Rv.ofInt_setWidth (by omega), Rv.toInt_ofInt_fits (by omega) (by omega) (by omega), t]
  · show _ ∧ _
    rw [patch_insn, keep_Imm14_0, keep_Imm14_19]
    exact ⟨rfl, rfl⟩

theorem good_movw {l : Bytes} (h : 4 ≤ l.length) (g : Nat) {x : Int} {n : Nat} (e : (n : Int) = x / 2 ^ (16 * g) % 2 ^ 16) :
    Good (.imm16 g) l (patch l writeMovw (BitVec.ofNat 16 n)) x := by
  refine ⟨?_, patch_length h _ _, patch_drop _ _ _, ?_⟩
  · show ((BitVec.toNat _ : Nat) : Int) = _
    rw [patch_insn, bits_movw, BitVec.toNat_ofNat, ← e]
    have : n < 2 ^ 16 := by omega
    omega
  · show _ ∧ _
    rw [patch_insn, keep_movw_0, keep_movw_21]
    exact ⟨rfl, rfl⟩

theorem keep12 {l : Bytes} (h : 4 ≤ l.length) (n : Nat) (b : BitVec 16) : (Field.low12 n).Keeps l (patch l writeImm12 b) := by
  refine ⟨patch_length h _ _, patch_drop _ _ _, ?_⟩
  show _ ∧ _
  rw [patch_insn, keep_imm12_0, keep_imm12_22]
  exact ⟨rfl, rfl⟩

theorem show12 (l : Bytes) (b : BitVec 16) : ((insn (patch l writeImm12 b)).extractLsb' 10 12).toNat = b.toNat % 4096 := by
  rw [patch_insn, bits_imm12, BitVec.toNat_setWidth]

theorem good_12 {l : Bytes} (h : 4 ≤ l.length) (s : Scale) {x : Int} {low : Nat} (e : (low : Int) = x % 4096) (h0 : x % s.bytes = 0) :
    Good (.low12 s.bytes) l (patch l writeImm12 (BitVec.ofNat 16 (low / s.bytes))) x := by
  refine ⟨?_, keep12 h _ _⟩
  show ((BitVec.toNat _ : Nat) : Int) * _ = _
  rw [show12, BitVec.toNat_ofNat]
  cases s <;> simp only [Scale.bytes] at * <;> omega

theorem low12_dvd {x : Int} {low : Nat} (s : Scale) (e : (low : Int) = x % 4096) : low % s.bytes = 0 ↔ x % s.bytes = 0 := by
  cases s <;> simp only [Scale.bytes] <;> omega

/-! ### The groups -/

variable {v : Vals} {A : Int} {l : Bytes}

theorem out_lowPart {base : Nat} (hl : 4 ≤ l.length) (s : Scale) :
    Out (lowPart base A l s.bytes) ((base + A) % s.bytes = 0) (fun n => Good (.low12 s.bytes) l n (base + A)) := by
  have e := addModulo_toNat base A
  have e2 : (((addModulo base A).toNat % 4096 : Nat) : Int) = (base + A) % 4096 := by omega
  have e3 : (addModulo base A).toNat % s.bytes = 0 ↔ (base + A) % s.bytes = 0 := by
    cases s <;> simp only [Scale.bytes] <;> omega
  unfold lowPart
  refine (Out.ite_not (R := True) fun hc => Out.ok ?_).mono ?_ (fun _ _ g => g)
  · exact good_12 hl s e2 (e3.1 (by omega))
  · rw [← e3]; simp

theorem out_movw (hv : v.Wide) (hA : Wide A) (hl : 4 ≤ l.length) (g : Nat) (hg : g < 4) :
    Out (movw v A l (16 * g) false) (0 ≤ v.S + A ∧ v.S + A < 2 ^ (16 * g + 16)) (fun n => Good (.imm16 g) l n (v.S + A)) := by
  obtain ⟨e, ok⟩ := integerAdd_val hv.S hA
  unfold movw
  simp only [Bool.false_eq_true, if_false]
  refine (Out.bind_unsigned (R := True) ok.mag (integerAdd_normal _ _) (by omega) (by omega) fun n h1 h2 => Out.ok ?_).mono
    (by rw [e]; simp) (fun _ _ g => g)
  apply good_movw hl
  rw [e] at h1
  rw [← h1, Nat.shiftRight_eq_div_pow]
  simp

theorem out_movw_nc (hl : 4 ≤ l.length) (g : Nat) (hg : g < 4) :
    Out (movw v A l (16 * g) true) True (fun n => Good (.imm16 g) l n (v.S + A)) := by
  have e := addModulo_toNat v.S A
  unfold movw
  simp only [if_true, Option.bind_some]
  apply Out.ok
  apply good_movw hl
  rw [Nat.shiftRight_eq_div_pow]
  have : g = 0 ∨ g = 1 ∨ g = 2 ∨ g = 3 := by omega
  rcases this with rfl | rfl | rfl | rfl <;> simp only [Nat.reduceMul] <;> omega

theorem floorPage_val {r : RInt} (h : r.Ok) : r.floorPage.val = r.val / 4096 ∧ r.floorPage.Ok := by
  obtain ⟨m, hi, ng⟩ := r
  obtain ⟨h1, h2⟩ := h
  simp only at h1 h2
  unfold RInt.floorPage
  rw [normalize_val]
  cases hi
  · cases ng
    · simp only [Bool.false_eq_true, if_false, Nat.shiftRight_eq_div_pow]
      refine ⟨?_, normalize_ok ⟨?_, ?_⟩⟩
      · simp [RInt.val]
      · simp only; omega
      · simp
    · simp only [Bool.false_eq_true, if_false, if_true, Nat.shiftRight_eq_div_pow]
      refine ⟨?_, normalize_ok ⟨?_, ?_⟩⟩
      · simp only [RInt.val, Bool.false_eq_true, if_false, if_true]
        split <;> omega
      · simp only; split <;> omega
      · simp
  · cases ng
    · simp only [if_true, Nat.shiftRight_eq_div_pow]
      refine ⟨?_, normalize_ok ⟨?_, ?_⟩⟩
      · simp only [RInt.val, Bool.false_eq_true, if_false, if_true]
        omega
      · simp only; omega
      · simp
    · simp at h2

theorem out_page {base : Nat} (hb : base < 2 ^ 64) (hv : v.Wide) (hA : Wide A) (hl : 4 ≤ l.length) :
    Out (pagePart base v A l) (-2 ^ 32 ≤ page (base + A) - page v.P ∧ page (base + A) - page v.P < 2 ^ 32)
      (fun n => Good .page21 l n (page (base + A) - page v.P)) := by
  obtain ⟨e, ok⟩ := integerAdd_val hb hA
  obtain ⟨e2, ok2⟩ := floorPage_val ok
  have hp := hv.P
  obtain ⟨e3, m3⟩ := subtract_val (s := v.P >>> 12) ok2 (by rw [Nat.shiftRight_eq_div_pow]; omega)
  have key := toSigned_iff m3 (bits := 21) (by omega) (by omega)
  rw [e3, e2, e, Nat.shiftRight_eq_div_pow] at key
  have eq : page (base + A) - page v.P = ((base + A) / 4096 - ((v.P / 2 ^ 12 : Nat) : Int)) * 4096 := by
    unfold page; omega
  unfold pagePart pageDelta
  rw [Nat.shiftRight_eq_div_pow]
  rw [eq]
  cases h : (((integerAdd base A).floorPage).subtract (v.P / 2 ^ 12)).toSigned 21 with
  | none =>
    rintro ⟨a, b⟩
    have := (key _).2 ⟨rfl, by omega, by omega⟩
    rw [h] at this
    cases this
  | some x =>
    obtain ⟨rfl, h1, h2⟩ := (key x).1 h
    exact ⟨⟨by omega, by omega⟩, good_page hl h1 h2⟩

theorem subtract_normal {r : RInt} (ok : r.Ok) (na : r.normalize = r) {s : Nat} (hs64 : s < 2 ^ 64) : (r.subtract s).normalize = r.subtract s := by
  have idem : ∀ v : RInt, v.normalize.normalize = v.normalize := by
    intro v
    unfold RInt.normalize
    split
    · simp
    · rename_i h; simp [h]
  obtain ⟨m, hi, ng⟩ := r
  have hm := ok.mag
  have hh := ok.neg
  simp only at hm hh
  unfold RInt.subtract
  simp only
  split
  · exact na
  · rename_i hs
    split
    · rename_i hneg
      have := hh hneg
      subst this
      have m0 : m ≠ 0 := by
        intro e
        subst e
        subst hneg
        simp [RInt.normalize] at na
      unfold RInt.normalize
      by_cases hc : m + s < 2 ^ 64
      · have e : (m + s) % 2 ^ 64 = m + s := Nat.mod_eq_of_lt hc
        rw [e]
        simp; omega
      · have e : (m + s) % 2 ^ 64 = (m + s - 2 ^ 64) % 2 ^ 64 := Nat.mod_eq_sub_mod (by omega)
        have lt : (m + s) % 2 ^ 64 < m := by
          rw [e]; exact Nat.lt_of_le_of_lt (Nat.mod_le _ _) (by omega)
        simp [lt]
    · split
      · split <;> exact idem _
      · split <;> exact idem _

theorem out_gotPage (hv : v.Wide) (hA : Wide A) (hl : 4 ≤ l.length) :
    Out (gotPageOffset v A l) ((v.G + A - page v.GOT) % 8 = 0 ∧ 0 ≤ v.G + A - page v.GOT ∧ v.G + A - page v.GOT < 2 ^ 15)
      (fun n => Good .imm15 l n (v.G + A - page v.GOT)) := by
  obtain ⟨e, ok⟩ := integerAdd_val hv.G hA
  have hg := hv.GOT
  have pe : page v.GOT = ((v.GOT - v.GOT % 4096 : Nat) : Int) := by unfold page; omega
  obtain ⟨e3, m3⟩ := subtract_val (s := v.GOT - v.GOT % 4096) ok (by omega)
  rw [e] at e3
  unfold gotPageOffset integerExpression
  simp only
  generalize hr : (integerAdd v.G A).subtract (v.GOT - v.GOT % 4096) = r at *
  have nrm : r.normalize = r := by rw [← hr]; exact subtract_normal ok (integerAdd_normal v.G A) (by omega)
  refine (Out.bind_unsigned (R := (v.G + A - page v.GOT) % 8 = 0) m3 nrm (by omega) (by omega) fun n h1 h2 => ?_).mono
    (by rw [e3, pe]; exact and_comm) (fun _ _ g => g)
  rw [e3] at h1
  refine (Out.ite_not (R := True) fun hc => Out.ok ?_).mono (by rw [pe, ← h1]; simp only [and_true]; omega) (fun _ _ g => g)
  refine ⟨?_, keep12 hl 1 _⟩
  show ((BitVec.toNat _ : Nat) : Int) * 8 = _
  rw [show12, BitVec.toNat_ofNat, pe]
  omega

theorem floorShift_eq {unit : Nat} (hu : unit = 4096 ∨ unit = 65536) (x : Int) : floorShift unit x = x / unit := by
  unfold floorShift addendMagnitude
  rcases hu with rfl | rfl
  · split
    · rw [Int.tdiv_eq_ediv_of_nonneg ‹_›]
    · omega
  · split
    · rw [Int.tdiv_eq_ediv_of_nonneg ‹_›]
    · omega

theorem ofInt16_and (x : Int) : ((BitVec.ofInt 16 x &&& 0xfff#16).toNat : Int) = x % 4096 := by
  have e := toNat_ofInt_emod 16 x
  rw [BitVec.toNat_and, show (0xfff#16).toNat = 2 ^ 12 - 1 from rfl, Nat.and_two_pow_sub_one_eq_mod]
  omega

theorem out_tlsHi (hv : v.Wide) (hA : Wide A) (hl : 4 ≤ l.length) :
    Out (tlsAdd 549 v A l) (-2 ^ 23 ≤ v.S + A - v.TP ∧ v.S + A - v.TP < 2 ^ 23)
      (fun n => 0 ≤ v.S + A - v.TP → Good .high12 l n (v.S + A - v.TP)) := by
  unfold tlsAdd
  simp only [if_true]
  refine (Out.bind_expr (R := -2 ^ 11 ≤ (v.S + A - v.TP) / 4096 ∧ (v.S + A - v.TP) / 4096 < 2 ^ 11)
    hv.S hA hv.TP (by omega) (by omega) fun h1 h2 => ?_).mono (by omega) (fun _ _ g => g)
  rw [floorShift_eq (Or.inl rfl)]
  refine (Out.ite (R := True) fun hc => Out.ok ?_).mono
    (by rw [signedFits_iff _ (by omega) (by omega)]; simp) (fun _ _ g => g)
  rw [signedFits_iff _ (by omega) (by omega)] at hc
  intro h0
  refine ⟨?_, keep12 hl 1 _⟩
  show ((BitVec.toNat _ : Nat) : Int) * 4096 = _
  rw [show12]
  have := ofInt16_and ((v.S + A - v.TP) / ((4096 : Nat) : Int))
  omega

theorem good_tlsLo (hl : 4 ≤ l.length) (x : Int) : Good (.low12 1) l (patch l writeImm12 (BitVec.ofInt 16 x &&& 0xfff#16)) x := by
  refine ⟨?_, keep12 hl 1 _⟩
  show ((BitVec.toNat _ : Nat) : Int) * _ = _
  rw [show12]
  have := ofInt16_and x
  omega

theorem out_tlsLo (hv : v.Wide) (hA : Wide A) (hl : 4 ≤ l.length) :
    Out (tlsAdd 550 v A l) (0 ≤ v.S + A - v.TP ∧ v.S + A - v.TP < 2 ^ 12) (fun n => Good (.low12 1) l n (v.S + A - v.TP)) := by
  unfold tlsAdd
  simp only [Nat.reduceEqDiff, if_false, true_and]
  refine (Out.bind_expr (R := 0 ≤ v.S + A - v.TP ∧ v.S + A - v.TP < 2 ^ 12)
    hv.S hA hv.TP (by omega) (by omega) fun h1 h2 => ?_).mono (by omega) (fun _ _ g => g)
  exact (Out.ite_not (R := True) fun hc => Out.ok (good_tlsLo hl _)).mono (by simp only [and_true]; omega) (fun _ _ g => g)

theorem out_tlsLoNc (hv : v.Wide) (hA : Wide A) (hl : 4 ≤ l.length) :
    Out (tlsAdd 551 v A l) (-2 ^ 63 ≤ v.S + A - v.TP ∧ v.S + A - v.TP < 2 ^ 63) (fun n => Good (.low12 1) l n (v.S + A - v.TP)) := by
  unfold tlsAdd
  simp only [Nat.reduceEqDiff, if_false, false_and]
  exact (Out.bind_expr (R := True) hv.S hA hv.TP (by omega) (by omega) fun h1 h2 => Out.ok (good_tlsLo hl _)).mono (by simp)
    (fun _ _ g => g)

theorem out_tlsLdst (hv : v.Wide) (hA : Wide A) (hl : 4 ≤ l.length) (s : Scale) :
    Out (tlsLdst s.bytes false v A l) ((v.S + A - v.TP) % s.bytes = 0 ∧ 0 ≤ v.S + A - v.TP ∧ v.S + A - v.TP < 2 ^ 12)
      (fun n => Good (.low12 s.bytes) l n (v.S + A - v.TP)) := by
  unfold tlsLdst
  simp only [Bool.not_false, Bool.true_and]
  refine (Out.bind_expr (R := (v.S + A - v.TP) % s.bytes = 0 ∧ 0 ≤ v.S + A - v.TP ∧ v.S + A - v.TP < 2 ^ 12)
    hv.S hA hv.TP (by omega) (by omega) fun h1 h2 => ?_).mono (by omega) (fun _ _ g => g)
  have e := toNat_ofInt_emod 64 (v.S + A - v.TP)
  have e2 : (((BitVec.ofInt 64 (v.S + A - v.TP)).toNat % 4096 : Nat) : Int) = (v.S + A - v.TP) % 4096 := by omega
  refine (Out.ite_not (R := (v.S + A - v.TP) % s.bytes = 0) fun hc => ?_).mono ?_ (fun _ _ g => g)
  · refine (Out.ite_not (R := True) fun hc => Out.ok ?_).mono ?_ (fun _ _ g => g)
    · exact good_12 hl s e2 ((low12_dvd s e2).1 (by omega))
    · rw [← low12_dvd s e2]; simp
  · simp; omega

theorem out_tlsLdstNc (hv : v.Wide) (hA : Wide A) (hl : 4 ≤ l.length) (s : Scale) :
    Out (tlsLdst s.bytes true v A l) ((v.S + A - v.TP) % s.bytes = 0 ∧ -2 ^ 63 ≤ v.S + A - v.TP ∧ v.S + A - v.TP < 2 ^ 63)
      (fun n => Good (.low12 s.bytes) l n (v.S + A - v.TP)) := by
  unfold tlsLdst
  simp only [Bool.not_true, Bool.false_and, Bool.false_eq_true, if_false]
  refine (Out.bind_expr (R := (v.S + A - v.TP) % s.bytes = 0)
    hv.S hA hv.TP (by omega) (by omega) fun h1 h2 => ?_).mono and_comm (fun _ _ g => g)
  have e := toNat_ofInt_emod 64 (v.S + A - v.TP)
  have e2 : (((BitVec.ofInt 64 (v.S + A - v.TP)).toNat % 4096 : Nat) : Int) = (v.S + A - v.TP) % 4096 := by omega
  refine (Out.ite_not (R := True) fun hc => Out.ok ?_).mono ?_ (fun _ _ g => g)
  · exact good_12 hl s e2 ((low12_dvd s e2).1 (by omega))
  · rw [← low12_dvd s e2]; simp

theorem out_descAdd (hv : v.Wide) (hA : Wide A) (hl : 4 ≤ l.length) :
    Out (descAdd v A l) (Ty.descAdd.Form l ∧ -2 ^ 31 ≤ v.S + A - v.TP ∧ v.S + A - v.TP < 2 ^ 31)
      (fun n => 0 ≤ v.S + A - v.TP → Good .movzHigh l n (v.S + A - v.TP)) := by
  unfold descAdd
  refine (Out.ite_not (R := -2 ^ 31 ≤ v.S + A - v.TP ∧ v.S + A - v.TP < 2 ^ 31) fun hf => ?_).mono ?_ (fun _ _ g => g)
  · refine (Out.bind_expr (R := -2 ^ 15 ≤ (v.S + A - v.TP) / 65536 ∧ (v.S + A - v.TP) / 65536 < 2 ^ 15)
      hv.S hA hv.TP (by omega) (by omega) fun h1 h2 => ?_).mono (by omega) (fun _ _ g => g)
    rw [floorShift_eq (Or.inr rfl)]
    refine (Out.ite (R := True) fun hc => Out.ok ?_).mono
      (by rw [signedFits_iff _ (by omega) (by omega)]; simp) (fun _ _ g => g)
    rw [signedFits_iff _ (by omega) (by omega)] at hc
    intro h0
    refine ⟨?_, length_writeU32 hl _, drop_writeU32 _ _, trivial⟩
    show _ ∧ _ ∧ _
    rw [insn_writeU32, movz_imm, movz_rd, movz_op]
    refine ⟨rfl, rfl, ?_⟩
    have := toNat_ofInt_emod 16 ((v.S + A - v.TP) / ((65536 : Nat) : Int))
    omega
  · unfold require
    rw [readU32_eq]
    have := descAdd_form (insn l)
    simp only [Bool.not_eq_true', Bool.not_eq_false]
    rw [this]
    exact Iff.rfl

theorem out_descCall (hv : v.Wide) (hA : Wide A) (hl : 4 ≤ l.length) :
    Out (descCall v A l) (Ty.descCall.Form l ∧ -2 ^ 31 ≤ v.S + A - v.TP ∧ v.S + A - v.TP < 2 ^ 31)
      (fun n => 0 ≤ v.S + A - v.TP → Good .movkLow l n (v.S + A - v.TP)) := by
  unfold descCall
  refine (Out.ite_not (R := -2 ^ 31 ≤ v.S + A - v.TP ∧ v.S + A - v.TP < 2 ^ 31) fun hf => ?_).mono ?_ (fun _ _ g => g)
  · refine (Out.bind_expr (R := True) hv.S hA hv.TP (by omega) (by omega) fun h1 h2 => Out.ok ?_).mono (by simp) (fun _ _ g => g)
    intro h0
    refine ⟨?_, length_writeU32 hl _, drop_writeU32 _ _, trivial⟩
    show _ ∧ _ ∧ _
    rw [insn_writeU32, movk_imm, movk_rd, movk_op]
    refine ⟨rfl, rfl, ?_⟩
    exact toNat_ofInt_emod 16 _
  · unfold require
    rw [readU32_eq]
    have := descCall_form (insn l)
    simp only [Bool.not_eq_true', Bool.not_eq_false]
    rw [this]
    exact Iff.rfl

theorem out_nop (hl : 4 ≤ l.length) (x : Int) : Out (some (writeU32 l 0xd503201f#32)) True (fun n => Good .nop l n x) :=
  Out.ok ⟨insn_writeU32 _ _, length_writeU32 hl _, drop_writeU32 _ _, trivial⟩

theorem out_abs32 (hv : v.Wide) (hA : Wide A) (hl : 4 ≤ l.length) :
    Out (absolute v A l true) (0 ≤ v.S + A ∧ v.S + A < 2 ^ 32) (fun n => Good (.data 4) l n (v.S + A)) := by
  obtain ⟨e, ok⟩ := integerAdd_val hv.S hA
  unfold absolute
  simp only [if_true]
  refine (Out.bind_unsigned (R := True) ok.mag (integerAdd_normal _ _) (by omega) (by omega) fun n h1 h2 => Out.ok ?_).mono
    (by rw [e]; simp) (fun _ _ g => g)
  rw [e] at h1
  refine ⟨?_, length_writeU32 hl _, drop_writeU32 _ _, trivial⟩
  show ((leNat 4 _ : Nat) : Int) = _
  rw [leNat_writeU32, BitVec.toNat_ofNat, ← h1]
  omega

theorem out_abs16 (hv : v.Wide) (hA : Wide A) (hl : 2 ≤ l.length) :
    Out (absolute v A l false) (0 ≤ v.S + A ∧ v.S + A < 2 ^ 16) (fun n => Good (.data 2) l n (v.S + A)) := by
  obtain ⟨e, ok⟩ := integerAdd_val hv.S hA
  unfold absolute
  simp only [Bool.false_eq_true, if_false]
  refine (Out.bind_unsigned (R := True) ok.mag (integerAdd_normal _ _) (by omega) (by omega) fun n h1 h2 => Out.ok ?_).mono
    (by rw [e]; simp) (fun _ _ g => g)
  rw [e] at h1
  refine ⟨?_, length_writeU16 hl _, drop_writeU16 _ _, trivial⟩
  show ((leNat 2 _ : Nat) : Int) = _
  rw [leNat_writeU16, BitVec.toNat_ofNat, ← h1]
  omega

/-- The PC-relative group: `base` is the symbol or its GOT entry. -/
theorem out_pcrel {base : Nat} (hb : base < 2 ^ 64) (hv : v.Wide) (hA : Wide A) {type : Nat} {R : Prop} {G : Bytes → Prop}
    (h : Out (pcrel type l (base + A - v.P)) R G) :
    Out ((expressionSigned base A v.P 64).bind fun delta => pcrel type l delta)
      ((-2 ^ 63 ≤ base + A - v.P ∧ base + A - v.P < 2 ^ 63) ∧ R) G :=
  Out.bind_expr hb hA hv.P (by omega) (by omega) fun _ _ => h

theorem fits_ite {x : Int} {bits : Nat} {o : Bytes} {R : Prop} {G : Bytes → Prop} (h0 : 0 < bits) (h64 : bits < 64)
    (hR : R ↔ -2 ^ (bits - 1) ≤ x ∧ x < 2 ^ (bits - 1))
    (h : -2 ^ (bits - 1) ≤ x → x < 2 ^ (bits - 1) → G o) : Out (if signedFits x bits then some o else none) R G := by
  refine (Out.ite (R := True) fun hc => Out.ok ?_).mono (by rw [signedFits_iff _ h0 h64, hR]; simp) (fun _ _ g => g)
  rw [signedFits_iff _ h0 h64] at hc
  exact h hc.1 hc.2

theorem fits_ite4 {x : Int} {bits : Nat} {o : Bytes} {R : Prop} {G : Bytes → Prop} (h0 : 0 < bits) (h64 : bits < 64)
    (hR : R ↔ x % 4 = 0 ∧ -2 ^ (bits - 1) ≤ x ∧ x < 2 ^ (bits - 1))
    (h : x % 4 = 0 → -2 ^ (bits - 1) ≤ x → x < 2 ^ (bits - 1) → G o) :
    Out (if x % 4 ≠ 0 then none else if signedFits x bits then some o else none) R G := by
  refine (Out.ite_not (R := -2 ^ (bits - 1) ≤ x ∧ x < 2 ^ (bits - 1)) fun hc =>
    fits_ite h0 h64 Iff.rfl (h (by omega))).mono (by rw [hR]; simp) (fun _ _ g => g)

/-! ### All relocations -/

/-- What the code demands of the value. -/
def CodeRange (t : Ty) (x : Int) : Prop :=
  match t with
  | .abs32 => 0 ≤ x ∧ x < 2 ^ 32
  | .abs16 => 0 ≤ x ∧ x < 2 ^ 16
  | .prel64 | .tlsleLo12nc => -2 ^ 63 ≤ x ∧ x < 2 ^ 63
  | .prel32 | .descAdd | .descCall => -2 ^ 31 ≤ x ∧ x < 2 ^ 31
  | .prel16 => -2 ^ 15 ≤ x ∧ x < 2 ^ 15
  | .g3 => 0 ≤ x ∧ x < 2 ^ 64
  | .tlsleHi12 => -2 ^ 23 ≤ x ∧ x < 2 ^ 23
  | .tlsleLdstnc s => x % s.bytes = 0 ∧ -2 ^ 63 ≤ x ∧ x < 2 ^ 63
  | t => t.Fits x

/-- Where the code takes negative values that the field cannot show. -/
def Loose (t : Ty) : Prop := t = .tlsleHi12 ∨ t = .descAdd ∨ t = .descCall

theorem out_apply (t : Ty) (hv : v.Wide) (hA : Wide A) :
    Out (apply t.code v A l) (t.field.width ≤ l.length ∧ t.Form l ∧ CodeRange t (t.value v A))
      (fun n => (Loose t → 0 ≤ t.value v A) → Good t.field l n (t.value v A)) := by
  have fin : ∀ {w : Nat}, writeWidth t.code = some w → t.field.width = w →
      (w ≤ l.length → Out (applyArm t.code v A l) (t.Form l ∧ CodeRange t (t.value v A))
        (fun n => (Loose t → 0 ≤ t.value v A) → Good t.field l n (t.value v A))) →
      Out (apply t.code v A l) (t.field.width ≤ l.length ∧ t.Form l ∧ CodeRange t (t.value v A))
        (fun n => (Loose t → 0 ≤ t.value v A) → Good t.field l n (t.value v A)) := by
    intro w h1 h2 h
    unfold apply
    rw [h1]
    simp only
    refine (Out.ite_not fun hc => h (by omega)).mono (by rw [h2, Nat.not_lt]) (fun _ _ g => g)
  have weak : ∀ {o : Option Bytes} {R : Prop} {f : Field} {x : Int} {Q : Prop}, Out o R (fun n => Good f l n x) →
      Out o (True ∧ R) (fun n => Q → Good f l n x) :=
    fun h => h.mono ⟨fun r => ⟨trivial, r⟩, And.right⟩ (fun _ _ g _ => g)
  have hS := hv.S
  have hG := hv.G
  cases t
  case none => exact fin (w := 0) rfl rfl fun hl => weak (Out.ok ⟨rfl, rfl, rfl, trivial⟩)
  case abs64 =>
    exact fin (w := 8) rfl rfl fun hl => weak (Out.ok ⟨by show ((leNat 8 _ : Nat) : Int) = _; rw [leNat_writeU64, addModulo_toNat]; rfl,
      length_writeU64 hl _, drop_writeU64 _ _, trivial⟩)
  case abs32 => exact fin (w := 4) rfl rfl fun hl => weak (out_abs32 hv hA hl)
  case abs16 => exact fin (w := 2) rfl rfl fun hl => weak (out_abs16 hv hA hl)
  case prel64 =>
    exact fin (w := 8) rfl rfl fun hl => weak ((out_pcrel (type := 260) (l := l) (R := True) hS hv hA (Out.ok
      ⟨by show ((leNat 8 _ : Nat) : Int) = _; rw [leNat_writeU64, toNat_ofInt_emod]; rfl, length_writeU64 hl _, drop_writeU64 _ _, trivial⟩)).mono
      (by simp [CodeRange, Ty.value]) (fun _ _ g => g))
  case prel32 =>
    exact fin (w := 4) rfl rfl fun hl => weak ((out_pcrel (type := 261) (l := l) hS hv hA (fits_ite (bits := 32) (by omega) (by omega) Iff.rfl fun _ _ =>
      ⟨by show ((leNat 4 _ : Nat) : Int) = _; rw [leNat_writeU32, toNat_ofInt_emod]; rfl, length_writeU32 hl _, drop_writeU32 _ _, trivial⟩)).mono
      (by simp only [CodeRange, Ty.value]; omega) (fun _ _ g => g))
  case prel16 =>
    exact fin (w := 2) rfl rfl fun hl => weak ((out_pcrel (type := 262) (l := l) hS hv hA (fits_ite (bits := 16) (by omega) (by omega) Iff.rfl fun _ _ =>
      ⟨by show ((leNat 2 _ : Nat) : Int) = _; rw [leNat_writeU16, toNat_ofInt_emod]; rfl, length_writeU16 hl _, drop_writeU16 _ _, trivial⟩)).mono
      (by simp only [CodeRange, Ty.value]; omega) (fun _ _ g => g))
  case g0 => exact fin (w := 4) rfl rfl fun hl => weak (out_movw hv hA hl 0 (by omega))
  case g1 => exact fin (w := 4) rfl rfl fun hl => weak (out_movw hv hA hl 1 (by omega))
  case g2 => exact fin (w := 4) rfl rfl fun hl => weak (out_movw hv hA hl 2 (by omega))
  case g3 => exact fin (w := 4) rfl rfl fun hl => weak (out_movw hv hA hl 3 (by omega))
  case g0nc => exact fin (w := 4) rfl rfl fun hl => weak (out_movw_nc hl 0 (by omega))
  case g1nc => exact fin (w := 4) rfl rfl fun hl => weak (out_movw_nc hl 1 (by omega))
  case g2nc => exact fin (w := 4) rfl rfl fun hl => weak (out_movw_nc hl 2 (by omega))
  case ldPrel19 =>
    exact fin (w := 4) rfl rfl fun hl => weak ((out_pcrel (type := 273) (l := l) hS hv hA (fits_ite4 (bits := 21) (by omega) (by omega) Iff.rfl fun a b c =>
      good_19 hl a b c)).mono (by simp only [CodeRange, Ty.value, Ty.Fits]; omega) (fun _ _ g => g))
  case condbr19 =>
    exact fin (w := 4) rfl rfl fun hl => weak ((out_pcrel (type := 280) (l := l) hS hv hA (fits_ite4 (bits := 21) (by omega) (by omega) Iff.rfl fun a b c =>
      good_19 hl a b c)).mono (by simp only [CodeRange, Ty.value, Ty.Fits]; omega) (fun _ _ g => g))
  case gotLd19 =>
    exact fin (w := 4) rfl rfl fun hl => weak ((out_pcrel (type := 309) (l := l) hG hv hA (fits_ite4 (bits := 21) (by omega) (by omega) Iff.rfl fun a b c =>
      good_19 hl a b c)).mono (by simp only [CodeRange, Ty.value, Ty.Fits]; omega) (fun _ _ g => g))
  case adr21 =>
    exact fin (w := 4) rfl rfl fun hl => weak ((out_pcrel (type := 274) (l := l) hS hv hA (fits_ite (bits := 21) (by omega) (by omega) Iff.rfl fun b c =>
      good_adr hl b c)).mono (by simp only [CodeRange, Ty.value, Ty.Fits]; omega) (fun _ _ g => g))
  case tstbr14 =>
    exact fin (w := 4) rfl rfl fun hl => weak ((out_pcrel (type := 279) (l := l) hS hv hA (fits_ite4 (bits := 16) (by omega) (by omega) Iff.rfl fun a b c =>
      good_14 hl a b c)).mono (by simp only [CodeRange, Ty.value, Ty.Fits]; omega) (fun _ _ g => g))
  case jump26 =>
    exact fin (w := 4) rfl rfl fun hl => weak ((out_pcrel (type := 282) (l := l) hS hv hA (fits_ite4 (bits := 28) (by omega) (by omega) Iff.rfl fun a b c =>
      good_26 hl a b c)).mono (by simp only [CodeRange, Ty.value, Ty.Fits]; omega) (fun _ _ g => g))
  case call26 =>
    exact fin (w := 4) rfl rfl fun hl => weak ((out_pcrel (type := 283) (l := l) hS hv hA (fits_ite4 (bits := 28) (by omega) (by omega) Iff.rfl fun a b c =>
      good_26 hl a b c)).mono (by simp only [CodeRange, Ty.value, Ty.Fits]; omega) (fun _ _ g => g))
  case adrPage => exact fin (w := 4) rfl rfl fun hl => weak (out_page hS hv hA hl)
  case gotPage | tlsgdPage | tlsiePage => exact fin (w := 4) rfl rfl fun hl => weak (out_page hG hv hA hl)
  case addLo12 => exact fin (w := 4) rfl rfl fun hl => weak ((out_lowPart hl .s1).mono (by simp [Scale.bytes, CodeRange, Ty.Fits]) (fun _ _ g => g))
  case tlsgdLo12 => exact fin (w := 4) rfl rfl fun hl => weak ((out_lowPart hl .s1).mono (by simp [Scale.bytes, CodeRange, Ty.Fits]) (fun _ _ g => g))
  case gotLo12 | tlsieLo12 => exact fin (w := 4) rfl rfl fun hl => weak (out_lowPart hl .s8)
  case gotPage15 => exact fin (w := 4) rfl rfl fun hl => weak (out_gotPage hv hA hl)
  case ldst s =>
    cases s
    · exact fin (w := 4) rfl rfl fun hl => weak (out_lowPart hl .s1)
    · exact fin (w := 4) rfl rfl fun hl => weak (out_lowPart hl .s2)
    · exact fin (w := 4) rfl rfl fun hl => weak (out_lowPart hl .s4)
    · exact fin (w := 4) rfl rfl fun hl => weak (out_lowPart hl .s8)
    · exact fin (w := 4) rfl rfl fun hl => weak (out_lowPart hl .s16)
  case tlsleHi12 =>
    exact fin (w := 4) rfl rfl fun hl => (out_tlsHi hv hA hl).mono ⟨fun r => ⟨trivial, r⟩, And.right⟩ (fun _ _ g h => g (h (Or.inl rfl)))
  case tlsleLo12 => exact fin (w := 4) rfl rfl fun hl => weak (out_tlsLo hv hA hl)
  case tlsleLo12nc => exact fin (w := 4) rfl rfl fun hl => weak (out_tlsLoNc hv hA hl)
  case tlsleLdst s =>
    cases s
    · exact fin (w := 4) rfl rfl fun hl => weak (out_tlsLdst hv hA hl .s1)
    · exact fin (w := 4) rfl rfl fun hl => weak (out_tlsLdst hv hA hl .s2)
    · exact fin (w := 4) rfl rfl fun hl => weak (out_tlsLdst hv hA hl .s4)
    · exact fin (w := 4) rfl rfl fun hl => weak (out_tlsLdst hv hA hl .s8)
    · exact fin (w := 4) rfl rfl fun hl => weak (out_tlsLdst hv hA hl .s16)
  case tlsleLdstnc s =>
    cases s
    · exact fin (w := 4) rfl rfl fun hl => weak (out_tlsLdstNc hv hA hl .s1)
    · exact fin (w := 4) rfl rfl fun hl => weak (out_tlsLdstNc hv hA hl .s2)
    · exact fin (w := 4) rfl rfl fun hl => weak (out_tlsLdstNc hv hA hl .s4)
    · exact fin (w := 4) rfl rfl fun hl => weak (out_tlsLdstNc hv hA hl .s8)
    · exact fin (w := 4) rfl rfl fun hl => weak (out_tlsLdstNc hv hA hl .s16)
  case descPage =>
    refine fin (w := 4) rfl rfl fun hl => ?_
    show Out (if require l 0x9f00001f#32 0x90000000#32 then _ else none) _ _
    refine (Out.ite fun _ => out_nop hl 0).mono ?_ (fun _ _ g _ => g)
    unfold require
    rw [readU32_eq, descPage_form]
    exact Iff.rfl
  case descLd =>
    refine fin (w := 4) rfl rfl fun hl => ?_
    show Out (if require l 0xffc003e0#32 0xf9400000#32 then _ else none) _ _
    refine (Out.ite fun _ => out_nop hl 0).mono ?_ (fun _ _ g _ => g)
    unfold require
    rw [readU32_eq, descLd_form]
    exact Iff.rfl
  case descAdd =>
    exact fin (w := 4) rfl rfl fun hl => (out_descAdd hv hA hl).mono Iff.rfl (fun _ _ g h => g (h (Or.inr (Or.inl rfl))))
  case descCall =>
    exact fin (w := 4) rfl rfl fun hl => (out_descCall hv hA hl).mono Iff.rfl (fun _ _ g h => g (h (Or.inr (Or.inr rfl))))

end Nature.Reloc.Arm
