import Verif.Riscv.Cases
/-!
C86: the machine code of an instruction is that instruction, on riscv64.
-/
namespace Nature.Riscv

variable {ρ : Type}

/-- The requests the encoder gets right; the others that are sensible are the subject of the counterexamples below. -/
def Supported : Req → Prop
  | .rrr op d a b => op = .add → ¬ (d = a ∧ b = 0) ∧ ¬ (d = b ∧ a = 0)
  | .rri op d a _ => op = .addiw → ¬ (d = 0 ∧ a = 0)
  | .un op d a => op = .sext 32 → ¬ (d = 0 ∧ a = 0)
  | .li d v => im12 v ∨ (d ≠ 0 ∧ d ≠ 2)
  | .load op d a _ => ¬ (op = .ld ∧ d = 0 ∧ a = 2)
  | .store op d a off => ¬ (op = .sw ∧ (8 ≤ d ∧ d ≤ 15) ∧ (8 ≤ a ∧ a ≤ 15) ∧ 0 ≤ off ∧ off < 128 ∧ off % 8 = 4)
  | .jr a | .jalr a => a ≠ 0
  | .call off => off % 4096 < 2048
  | _ => True

/-! ### Bytes and lengths -/

def B (c : List Nat) : Prop := ∀ b ∈ c, b < 256

theorem B16 (h : Nat) : B (c16 h) := by
  intro b hb
  simp only [c16, List.mem_cons, List.not_mem_nil, or_false] at hb
  omega

theorem B32 (h : Nat) : B (c32 h) := by
  intro b hb
  simp only [c32, List.mem_cons, List.not_mem_nil, or_false] at hb
  omega

theorem Bapp {a b : List Nat} (ha : B a) (hb : B b) : B (a ++ b) := by
  intro x hx
  rw [List.mem_append] at hx
  exact hx.elim (ha x) (hb x)

theorem BI (op : IOp) (d a : Nat) (v : Int) : B (wI op d a v) := by cases op <;> exact B32 _

theorem B3 (op : ROp) (d a b : Nat) : B (long3 op d a b) ∧ (long3 op d a b).length ≤ 4 := by
  by_cases ho : op = .add
  · subst ho
    show B (if d = a then cADD d b else if d = b then cADD d a else wR .add d a b) ∧
      (if d = a then cADD d b else if d = b then cADD d a else wR .add d a b).length ≤ 4
    split
    · exact ⟨B16 _, (by decide : 2 ≤ 4)⟩
    · split
      · exact ⟨B16 _, (by decide : 2 ≤ 4)⟩
      · exact ⟨B32 _, (by decide : 4 ≤ 4)⟩
  · have e : long3 op d a b = wR op d a b := by cases op <;> first | rfl | exact absurd rfl ho
    rw [e]
    exact ⟨B32 _, (by decide : 4 ≤ 4)⟩

theorem B3r (op : ROp) (d a b : Nat) : B (asm3r op d a b) ∧ (asm3r op d a b).length ≤ 4 := by
  have l := B3 op d a b
  unfold asm3r
  split
  · split
    · rename_i c hc
      split at hc
      · cases op <;> cases hc <;> exact ⟨B16 _, (by decide : 2 ≤ 4)⟩
      · cases hc
    · exact l
  · split
    · split
      · rename_i c hc
        split at hc
        · cases op <;> cases hc <;> exact ⟨B16 _, (by decide : 2 ≤ 4)⟩
        · cases hc
      · exact l
    · exact l

theorem B2 (op : IOp) (d : Nat) (v : Int) (c : List Nat) (h : short2 op d v = some c) : B c := by
  cases op <;> simp only [short2] at h
  case addi =>
    split at h
    · cases h; exact B16 _
    · split at h
      · cases h; exact B16 _
      · cases h
  case addiw | andi | slli | srli | srai =>
    split at h
    · cases h; exact B16 _
    · cases h
  all_goals cases h

theorem Bl2 (op : IOp) (d a : Nat) (v : Int) (c : List Nat) (h : long2 op d a v = some c) : B c := by
  cases op <;> simp only [long2] at h <;> split at h <;> cases h <;> exact BI _ _ _ _

theorem B2ri (op : IOp) (d a : Nat) (v : Int) (c : List Nat) (h : asm2ri op d a v = some c) : B c := by
  unfold asm2ri at h
  split at h
  · cases h
    split
    · unfold asmMv
      split
      · exact B16 _
      · exact B16 _
    · intro b hb
      cases hb
  · split at h
    · split at h
      · rename_i c' hc
        cases h
        exact B2 _ _ _ _ hc
      · exact Bl2 _ _ _ _ _ h
    · exact Bl2 _ _ _ _ _ h

theorem Bshifts (r : IOp) (d a : Nat) (k : Int) : B (shifts r d a k) := by
  unfold shifts
  apply Bapp
  · split
    · exact B16 _
    · exact BI _ _ _ _
  · split
    · split
      · exact B16 _
      · exact B16 _
    · exact BI _ _ _ _

theorem B2r (op : UOp) (d a : Nat) : B (asm2r op d a) := by
  unfold asm2r
  split
  case h_1 | h_10 | h_11 | h_12 => exact B32 _
  case h_2 | h_6 | h_9 => exact BI _ _ _ _
  case h_3 | h_4 | h_7 | h_8 => exact Bshifts _ _ _ _
  case h_5 =>
    split
    · exact B16 _
    · exact BI _ _ _ _

theorem Bli (d : Nat) (v : Int) : B (liSub d v) := by
  rw [liSub]
  split
  · exact B16 _
  · split
    · exact BI _ _ _ _
    · split
      · apply Bapp <;> split <;> split <;> first | exact B16 _ | exact B32 _ | exact BI _ _ _ _
      · apply Bapp
        · apply Bapp
          · exact Bli _ _
          · exact B16 _
        · split <;> split <;> first | exact B16 _ | exact BI _ _ _ _
termination_by v.natAbs
decreasing_by
  rename_i h32
  simp only [isIm32, decide_eq_true_eq] at h32
  split <;> omega

theorem encode_bytes (q : Req) (c : List Nat) (h : encode q = some c) : B c := by
  cases q <;> simp only [encode, Option.some.injEq] at h
  case rri => exact B2ri _ _ _ _ _ h
  all_goals subst h
  case rrr => exact (B3r _ _ _ _).1
  case un => exact B2r _ _ _
  case li => exact Bli _ _
  case mv =>
    unfold asmMv
    split <;> exact B16 _
  case load => simp only [asmLd]; repeat' split <;> first | exact B16 _ | exact B32 _ | skip
  case store => simp only [asmSd]; repeat' split <;> first | exact B16 _ | exact B32 _ | skip
  case fload => simp only [asmFld]; repeat' split <;> first | exact B16 _ | exact B32 _ | skip
  case fstore => simp only [asmFsd]; repeat' split <;> first | exact B16 _ | exact B32 _ | skip
  case call => exact Bapp (B32 _) (B32 _)
  all_goals first | exact B32 _ | exact B16 _

/-- Bytes are read in only one way. -/
theorem Reads.unique {c : List Nat} {is js : List (Insn × Nat)} (h1 : Reads c is) (h2 : Reads c js) : is = js := by
  induction h1 generalizing js with
  | nil =>
    cases h2 with
    | nil => rfl
    | cons h _ => cases h
  | cons h _ ih =>
    cases h2 with
    | nil => cases h
    | cons h' t' =>
      rw [h] at h'
      cases h'
      rw [ih t']

theorem fInsn_arith (op : Arith) (dbl : Bool) (d a b : Nat) :
    fInsn d 7 a b (fArith op + dblBit dbl) = some (.fff (.arith op dbl 7) d a b) := by cases op <;> cases dbl <;> rfl

/-- **C86**, in part.  Every request whose registers exist and whose numbers the instruction set has room for, except those that
`Supported` leaves out, is encoded; the code is at most 26 bytes, the room that the compiler has for it; and what the processor
reads in those bytes, whatever memory and floating point instructions do, has the effect that was asked for and leads to the byte
after the code unless it jumps. -/
theorem C86_encodes_partial (M : Machine ρ) (q : Req) (hq : Sensible q) (hs : Supported q) :
    ∃ bytes is, encode q = some bytes ∧ bytes.length ≤ 26 ∧ (∀ b ∈ bytes, b < 256) ∧ Reads bytes is ∧
      ∀ s, run M is s = effect M bytes.length q s := by
  suffices h : ∃ c, encode q = some c ∧ c.length ≤ 26 ∧ Good M q c by
    obtain ⟨c, h1, h2, is, h3, h4⟩ := h
    exact ⟨c, is, h1, h2, encode_bytes q c h1, h3, h4⟩
  have hr := hq.regs
  have hv := hq.numbers
  cases q <;> simp only [Req.regs, List.mem_cons, List.not_mem_nil, or_false, forall_eq_or_imp, forall_eq] at hr
  case rrr op d a b =>
    have := (B3r op d a b).2
    exact ⟨_, rfl, by omega, asm3r_good M op hr.1 hr.2.1 hr.2.2 (fun e => (hs e).1) (fun e => (hs e).2)⟩
  case rri op d a v =>
    obtain ⟨c, h1, h2, h3⟩ := asm2ri_good M op hr.1 hr.2 hv hs
    exact ⟨c, h1, by omega, h2⟩
  case un op d a =>
    have := asm2r_good M op hr.1 hr.2 hv hs
    exact ⟨_, rfl, by omega, this.1⟩
  case mv d a => exact ⟨_, rfl, by rw [(mv_is hr.1 hr.2).1]; omega, mv_good M hr.1 hr.2⟩
  case li d v =>
    have hl := li_length d 3 v (by simp only [Req.numbers] at hv; omega) (by simp only [Req.numbers] at hv; omega)
    refine ⟨_, rfl, hl, ?_⟩
    have ok : LiOk M d v (liSub d v) := by
      rcases hs with h | h
      · exact li_small M hr h
      · exact li_ok M hr h.1 h.2 v
    obtain ⟨js, h1, h2⟩ := ok [] [] Reads.nil
    rw [List.append_nil, List.append_nil] at h1
    exact ⟨js, h1, h2⟩
  case load op d a off =>
    have := ld_good M op hr.1 hr.2 hv hs
    exact ⟨_, rfl, by omega, this.1⟩
  case store op d a off =>
    have := sd_good M op (d := d) (a := a) (off := off) hr.1 hr.2 hv (fun h => hs (by
      simp only [rvc, decide_eq_true_eq] at h
      exact h))
    exact ⟨_, rfl, by omega, this.1⟩
  case fload b d a off =>
    have := fld_good M b hr.1 hr.2 hv
    exact ⟨_, rfl, by omega, this.1⟩
  case fstore b d a off =>
    have := fsd_good M b hr.1 hr.2 hv
    exact ⟨_, rfl, by omega, this.1⟩
  case j off =>
    exact ⟨_, rfl, (by decide : 4 ≤ 26), Is.good (n := 4) ⟨rfl, fun _ _ ht => jal_reads hv.1 hv.2.1 hv.2.2 ht⟩ fun _ => rfl⟩
  case jr a =>
    refine ⟨_, rfl, (by decide : 2 ≤ 26), Is.good (n := 2) ⟨rfl, fun _ _ ht => cJR_reads hr hs ht⟩ fun s => ?_⟩
    show ({ s with pc := even (s.get a + 0#64) } : St ρ) = { s with pc := even (s.get a) }
    rw [BitVec.add_zero]
  case jalr a =>
    refine ⟨_, rfl, (by decide : 2 ≤ 26), Is.good (n := 2) ⟨rfl, fun _ _ ht => cJALR_reads hr hs ht⟩ fun s => ?_⟩
    show ({ s.set 1 (s.pc + BitVec.ofNat 64 2) with pc := even (s.get a + 0#64) } : St ρ) = _
    rw [BitVec.add_zero]
    rfl
  case branch op a b off =>
    exact ⟨_, rfl, (by decide : 4 ≤ 26),
      Is.good (n := 4) ⟨rfl, fun _ _ ht => branch_reads op hr.1 hr.2 hv.1 hv.2.1 hv.2.2 ht⟩ fun _ => rfl⟩
  case call off =>
    exact ⟨_, rfl, (by decide : 8 ≤ 26), call_good M hv.1 (by have := hv.2; omega) hs⟩
  case ret =>
    refine ⟨_, rfl, (by decide : 2 ≤ 26), Is.good (n := 2) ⟨rfl, fun _ _ ht => cJR_reads (by decide) (by decide) ht⟩ fun s => ?_⟩
    show ({ s with pc := even (s.get 1 + 0#64) } : St ρ) = { s with pc := even (s.get 1) }
    rw [BitVec.add_zero]
  case ecall =>
    exact ⟨_, rfl, (by decide : 4 ≤ 26), Is.good (n := 4)
      ⟨rfl, fun _ _ ht => utype_reads (by decide) (by decide) (by decide) (by decide) rfl ht⟩ fun _ => rfl⟩
  case farith op dbl d a b =>
    exact ⟨_, rfl, (by decide : 4 ≤ 26), Is.good (n := 4) ⟨rfl, fun _ _ ht => rtype_reads (by cases op <;> cases dbl <;> decide) hr.2.2 hr.2.1
      (by decide) hr.1 (by decide) (by decide) (by decide) (fInsn_arith op dbl d a b) ht⟩ fun _ => rfl⟩
  case fsgnj k dbl d a b =>
    exact ⟨_, rfl, (by decide : 4 ≤ 26), Is.good (n := 4) (i := .fff (.sgnj k dbl) d a b) ⟨rfl, fun _ _ ht => rtype_reads (by cases dbl <;> decide) hr.2.2 hr.2.1
      (by cases k <;> decide) hr.1 (by decide) (by decide) (by decide) (by cases k <;> cases dbl <;> rfl) ht⟩ fun _ => rfl⟩
  case fsqrt dbl d a =>
    exact ⟨_, rfl, (by decide : 4 ≤ 26), Is.good (n := 4) (i := .ff (.sqrt dbl 7) d a) ⟨rfl, fun _ _ ht => rtype_reads (by cases dbl <;> decide) (by decide) hr.2
      (by decide) hr.1 (by decide) (by decide) (by decide) (by cases dbl <;> rfl) ht⟩ fun _ => rfl⟩
  case fmv dbl d a =>
    exact ⟨_, rfl, (by decide : 4 ≤ 26), Is.good (n := 4) (i := .fff (.sgnj .j dbl) d a a) ⟨rfl, fun _ _ ht => rtype_reads (by cases dbl <;> decide) hr.2 hr.2
      (by decide) hr.1 (by decide) (by decide) (by decide) (by cases dbl <;> rfl) ht⟩ fun _ => rfl⟩
  case fneg dbl d a =>
    exact ⟨_, rfl, (by decide : 4 ≤ 26), Is.good (n := 4) (i := .fff (.sgnj .jn dbl) d a a) ⟨rfl, fun _ _ ht => rtype_reads (by cases dbl <;> decide) hr.2 hr.2
      (by decide) hr.1 (by decide) (by decide) (by decide) (by cases dbl <;> rfl) ht⟩ fun _ => rfl⟩
  case fcvtDS d a =>
    exact ⟨_, rfl, (by decide : 4 ≤ 26), Is.good (n := 4) (i := .ff .widen d a) ⟨rfl, fun _ _ ht => rtype_reads (by decide) (by decide) hr.2
      (by decide) hr.1 (by decide) (by decide) (by decide) rfl ht⟩ fun _ => rfl⟩
  case fcvtSD d a =>
    exact ⟨_, rfl, (by decide : 4 ≤ 26), Is.good (n := 4) (i := .ff (.narrow 7) d a) ⟨rfl, fun _ _ ht => rtype_reads (by decide) (by decide) hr.2
      (by decide) hr.1 (by decide) (by decide) (by decide) rfl ht⟩ fun _ => rfl⟩
  case fcmp k dbl d a b =>
    exact ⟨_, rfl, (by decide : 4 ≤ 26), Is.good (n := 4) (i := .xff (.cmp k dbl) d a b) ⟨rfl, fun _ _ ht => rtype_reads (by cases dbl <;> decide) hr.2.2 hr.2.1
      (by cases k <;> decide) hr.1 (by decide) (by decide) (by decide) (by cases k <;> cases dbl <;> rfl) ht⟩ fun _ => rfl⟩
  case fmvX dbl d a =>
    exact ⟨_, rfl, (by decide : 4 ≤ 26), Is.good (n := 4) (i := .xf (.bits dbl) d a) ⟨rfl, fun _ _ ht => rtype_reads (by cases dbl <;> decide) (by decide) hr.2
      (by decide) hr.1 (by decide) (by decide) (by decide) (by cases dbl <;> rfl) ht⟩ fun _ => rfl⟩
  case fcvtToInt k dbl d a rm =>
    have hm : rm.getD 7 ≤ 4 ∨ rm.getD 7 = 7 := by
      cases rm with
      | none => exact .inr rfl
      | some m => exact .inl (hv m rfl)
    refine ⟨_, rfl, (by decide : 4 ≤ 26), Is.good (n := 4) (i := .xf (.toInt k dbl (rm.getD 7)) d a) ⟨rfl, fun _ _ ht =>
      rtype_reads (by cases dbl <;> decide) (by cases k <;> decide) hr.2 (by omega) hr.1 (by decide) (by decide) (by decide) ?_ ht⟩ fun _ => rfl⟩
    have ok : rmOk (rm.getD 7) = true := by unfold rmOk; exact decide_eq_true hm
    have : ∀ f3, rmOk f3 = true → decodeFields 0x53 d f3 a (intCode k) (0x60 + dblBit dbl) = some (.xf (.toInt k dbl f3) d a) := by
      intro f3 h
      have e : decodeFields 0x53 d f3 a (intCode k) (0x60 + dblBit dbl) =
          if rmOk f3 then some (.xf (.toInt k dbl f3) d a) else none := by cases k <;> cases dbl <;> rfl
      rw [e, if_pos h]
    exact this _ ok
  case fcvtFromInt k dbl d a =>
    exact ⟨_, rfl, (by decide : 4 ≤ 26), Is.good (n := 4)
      (i := .fx (.fromInt k dbl (if dbl = true ∧ (k = IntK.w ∨ k = IntK.wu) then none else some 7)) d a)
      ⟨rfl, fun _ _ ht => rtype_reads (by cases dbl <;> decide) (by cases k <;> decide) hr.2
      (by cases k <;> cases dbl <;> decide) hr.1 (by decide) (by decide) (by decide) (by cases k <;> cases dbl <;> rfl) ht⟩ fun _ => rfl⟩

/-- It meets the hypotheses: a number of 64 bits into `t0`, and a branch backwards. -/
example (M : Machine ρ) : ∃ bytes is, encode (.li 5 0x123456789abcdef0) = some bytes ∧ bytes.length ≤ 26 ∧ (∀ b ∈ bytes, b < 256) ∧
    Reads bytes is ∧ ∀ s, run M is s = effect M bytes.length (.li 5 0x123456789abcdef0) s :=
  C86_encodes_partial M _ ⟨by decide, by simp only [Req.numbers]; decide⟩ (.inr ⟨by decide, by decide⟩)

example (M : Machine ρ) : ∃ bytes is, encode (.branch .bltu 6 7 (-40)) = some bytes ∧ bytes.length ≤ 26 ∧ (∀ b ∈ bytes, b < 256) ∧
    Reads bytes is ∧ ∀ s, run M is s = effect M bytes.length (.branch .bltu 6 7 (-40)) s :=
  C86_encodes_partial M _ ⟨by decide, by simp only [Req.numbers]; decide⟩ trivial

/-- Six bytes for a number of 32 bits: `lui` and a short `addiw`. -/
example : encode (.li 10 0x12345001) = some [0x37, 0x55, 0x34, 0x12, 0x05, 0x25] := by decide +kernel

/-- The processor reads the bytes in no other way. -/
theorem C86_reading_unique (bytes : List Nat) (is js : List (Insn × Nat)) (h1 : Reads bytes is) (h2 : Reads bytes js) : is = js :=
  h1.unique h2

/-- Numbers the instruction set has no room for are refused and not cut off, except counts of `srliw` and `sraiw`. -/
theorem C86_refuses_partial (op : IOp) (d a : Nat) (v : Int) (h : ¬ (Req.rri op d a v).numbers)
    (hw : ¬ ((op = .srliw ∨ op = .sraiw) ∧ 32 ≤ v ∧ v < 64)) : encode (.rri op d a v) = none := by
  have l : long2 op d a v = none := by
    cases op <;> simp only [Req.numbers, im12] at h <;> simp only [long2] <;> rw [if_pos] <;> simp at hw ⊢ <;> omega
  show asm2ri op d a v = none
  unfold asm2ri
  rw [if_neg]
  · split
    · have s2 : short2 op d v = none := by
        cases op <;> simp only [Req.numbers, im12] at h <;> simp only [short2] <;> try rfl
        case addi =>
          have f1 : isIm6 v = false := by simp only [isIm6, decide_eq_false_iff_not]; omega
          have f2 : isIm6 (v / 16) = false := by simp only [isIm6, decide_eq_false_iff_not]; omega
          simp [f1, f2]
        case addiw | andi =>
          have f1 : isIm6 v = false := by simp only [isIm6, decide_eq_false_iff_not]; omega
          simp [f1]
        case slli | srli | srai =>
          have f1 : isUim6 v = false := by simp only [isUim6, decide_eq_false_iff_not]; omega
          simp [f1]
      rw [s2]
      exact l
    · exact l
  · rintro ⟨rfl, rfl⟩
    exact h ⟨by decide, by decide⟩

example : encode (.rri .addi 5 6 2048) = none := C86_refuses_partial _ _ _ _ (by simp only [Req.numbers]; decide) (by decide)

/-! ### Sensible requests that go wrong -/

/-- A word stored at 4 bytes after `s0` goes to `s0` itself. -/
theorem C86_store_word_counterexample : Sensible (.store .sw 9 8 4) ∧
    ∃ bytes, encode (.store .sw 9 8 4) = some bytes ∧ Reads bytes [(.store .sw 9 8 0, 2)] :=
  ⟨⟨by decide, by simp [Req.numbers, im12]⟩, _, rfl, .cons (by decide +kernel) .nil⟩

/-- Adding zero to `t0` calls the address in `t0`. -/
theorem C86_add_zero_counterexample : Sensible (.rrr .add 5 5 0) ∧
    ∃ bytes, encode (.rrr .add 5 5 0) = some bytes ∧ Reads bytes [(.jalr 1 5 0, 2)] :=
  ⟨⟨by decide, by simp [Req.numbers, im12]⟩, _, rfl, .cons (by decide +kernel) .nil⟩

/-- Loading 4096 into the stack pointer adds 32 to it. -/
theorem C86_load_sp_counterexample : Sensible (.li 2 4096) ∧
    ∃ bytes, encode (.li 2 4096) = some bytes ∧ Reads bytes [(.i .addi 2 2 32, 2), (.i .addiw 2 2 0, 2)] :=
  ⟨⟨by decide, by simp [Req.numbers, im12]⟩, liSub 2 4096, rfl, .cons (by decide +kernel) (.cons (by decide +kernel) (by
    have : List.drop 2 (List.drop 2 (liSub 2 4096)) = [] := by decide +kernel
    rw [this]
    exact .nil))⟩

/-- A call of what is 2048 bytes ahead calls what is 2048 bytes behind. -/
theorem C86_call_counterexample : Sensible (.call 2048) ∧
    ∃ bytes, encode (.call 2048) = some bytes ∧ Reads bytes [(.auipc 1 0, 4), (.jalr 1 1 (-2048), 4)] :=
  ⟨⟨by decide, by simp [Req.numbers, im12]⟩, _, rfl, .cons (by decide +kernel) (.cons (by decide +kernel) .nil)⟩

/-- Bytes that are no instruction: extending register zero, loading to register zero from the stack, and a shift by 40. -/
theorem C86_reserved_counterexample :
    (Sensible (.un (.sext 32) 0 0) ∧ (encode (.un (.sext 32) 0 0)).map decode1 = some none) ∧
      (Sensible (.load .ld 0 2 8) ∧ (encode (.load .ld 0 2 8)).map decode1 = some none) ∧
      (¬ (Req.rri .srliw 5 6 40).numbers ∧ (encode (.rri .srliw 5 6 40)).map decode1 = some none) :=
  ⟨⟨⟨by decide, by simp [Req.numbers, im12]⟩, by decide +kernel⟩, ⟨⟨by decide, by simp [Req.numbers, im12]⟩, by decide +kernel⟩, by simp [Req.numbers], by decide +kernel⟩

end Nature.Riscv
