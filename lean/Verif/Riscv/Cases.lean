import Verif.Riscv.Li
/-! The requests one by one. -/
namespace Nature.Riscv

variable {ρ : Type}

/-- The bytes are instructions that do what is asked. -/
def Good (M : Machine ρ) (q : Req) (c : List Nat) : Prop :=
  ∃ is, Reads c is ∧ ∀ s, run M is s = effect M c.length q s

/-- Bytes that read as one instruction. -/
def Is (c : List Nat) (i : Insn) (n : Nat) : Prop :=
  c.length = n ∧ ∀ t is, Reads t is → Reads (c ++ t) ((i, n) :: is)

theorem Is.good {M : Machine ρ} {q : Req} {c : List Nat} {i : Insn} {n : Nat} (h : Is c i n)
    (hx : ∀ s, exec M i n s = effect M n q s) : Good M q c :=
  ⟨[(i, n)], Reads.one (h.2 [] [] Reads.nil), fun s => by rw [h.1]; exact hx s⟩

theorem Is.two {M : Machine ρ} {q : Req} {c e : List Nat} {i j : Insn} {n m : Nat} (h : Is c i n) (g : Is e j m)
    (hx : ∀ s, exec M j m (exec M i n s) = effect M (n + m) q s) : Good M q (c ++ e) :=
  ⟨[(i, n), (j, m)], h.2 _ _ (Reads.one (g.2 [] [] Reads.nil)), fun s => by rw [List.length_append, h.1, g.1]; exact hx s⟩

theorem comm_add (a b : BitVec 64) : rEval .add a b = rEval .add b a := BitVec.add_comm a b
theorem comm_addw (a b : BitVec 64) : rEval .addw a b = rEval .addw b a := congrArg word (BitVec.add_comm (low a) (low b))
theorem comm_and (a b : BitVec 64) : rEval .and a b = rEval .and b a := BitVec.and_comm a b
theorem comm_or (a b : BitVec 64) : rEval .or a b = rEval .or b a := BitVec.or_comm a b
theorem comm_xor (a b : BitVec 64) : rEval .xor a b = rEval .xor b a := BitVec.xor_comm a b

theorem swap {M : Machine ρ} {op : ROp} {d a n : Nat} (h : ∀ a b, rEval op a b = rEval op b a) (s : St ρ) :
    exec M (.r op d d a) n s = effect M n (.rrr op d a d) s := by
  show (s.set d (rEval op (s.get d) (s.get a))).next n = (s.set d (rEval op (s.get a) (s.get d))).next n
  rw [h]

theorem wR_is (op : ROp) {d a b : Nat} (hd : d < 32) (ha : a < 32) (hb : b < 32) : Is (wR op d a b) (.r op d a b) 4 :=
  ⟨rfl, fun _ _ ht => wR_reads op hd ha hb ht⟩

theorem wI_is (op : IOp) {d a : Nat} {v : Int} (hd : d < 32) (ha : a < 32) (hv : (Req.rri op d a v).numbers) :
    Is (wI op d a v) (.i op d a v) 4 := ⟨by cases op <;> rfl, fun _ _ ht => wI_reads op hd ha hv ht⟩

theorem long3_good (M : Machine ρ) (op : ROp) {d a b : Nat} (hd : d < 32) (ha : a < 32) (hb : b < 32)
    (h1 : op = .add → ¬ (d = a ∧ b = 0)) (h2 : op = .add → ¬ (d = b ∧ a = 0)) : Good M (.rrr op d a b) (long3 op d a b) := by
  have w : Good M (.rrr op d a b) (wR op d a b) := (wR_is op hd ha hb).good fun _ => rfl
  by_cases ho : op = .add
  · subst ho
    show Good M _ (if d = a then cADD d b else if d = b then cADD d a else wR .add d a b)
    by_cases e1 : d = a
    · subst e1
      rw [if_pos rfl]
      exact Is.good (n := 2) ⟨rfl, fun _ _ ht => cADD_reads hd hb (fun h => h1 rfl ⟨rfl, h⟩) ht⟩ fun _ => rfl
    · rw [if_neg e1]
      by_cases e2 : d = b
      · subst e2
        rw [if_pos rfl]
        exact Is.good (n := 2) ⟨rfl, fun _ _ ht => cADD_reads hd ha (fun h => h2 rfl ⟨rfl, h⟩) ht⟩ (swap comm_add)
      · rw [if_neg e2]
        exact w
  · have e : long3 op d a b = wR op d a b := by cases op <;> first | rfl | exact absurd rfl ho
    rw [e]
    exact w

theorem asm3r_good (M : Machine ρ) (op : ROp) {d a b : Nat} (hd : d < 32) (ha : a < 32) (hb : b < 32)
    (h1 : op = .add → ¬ (d = a ∧ b = 0)) (h2 : op = .add → ¬ (d = b ∧ a = 0)) : Good M (.rrr op d a b) (asm3r op d a b) := by
  have l := long3_good M op hd ha hb h1 h2
  unfold asm3r
  split
  · rename_i e
    subst e
    split
    · rename_i c hc
      split at hc
      · rename_i hr
        simp only [Bool.and_eq_true] at hr
        have hb0 : b ≠ 0 := by
          have := hr.2
          simp only [rvc, decide_eq_true_eq] at this
          omega
        cases op <;> cases hc
        · exact Is.good (n := 2) ⟨rfl, fun _ _ ht => cADD_reads hd hb hb0 ht⟩ fun _ => rfl
        · exact Is.good (n := 2) ⟨rfl, fun _ _ ht => cADDW_reads hr.1 hr.2 ht⟩ fun _ => rfl
        · exact Is.good (n := 2) ⟨rfl, fun _ _ ht => cSUB_reads hr.1 hr.2 ht⟩ fun _ => rfl
        · exact Is.good (n := 2) ⟨rfl, fun _ _ ht => cSUBW_reads hr.1 hr.2 ht⟩ fun _ => rfl
        · exact Is.good (n := 2) ⟨rfl, fun _ _ ht => cAND_reads hr.1 hr.2 ht⟩ fun _ => rfl
        · exact Is.good (n := 2) ⟨rfl, fun _ _ ht => cOR_reads hr.1 hr.2 ht⟩ fun _ => rfl
        · exact Is.good (n := 2) ⟨rfl, fun _ _ ht => cXOR_reads hr.1 hr.2 ht⟩ fun _ => rfl
      · cases hc
    · exact l
  · split
    · rename_i e
      subst e
      split
      · rename_i c hc
        split at hc
        · rename_i hr
          simp only [Bool.and_eq_true] at hr
          have ha0 : a ≠ 0 := by
            have := hr.2
            simp only [rvc, decide_eq_true_eq] at this
            omega
          cases op <;> cases hc
          · exact Is.good (n := 2) ⟨rfl, fun _ _ ht => cADD_reads hd ha ha0 ht⟩ (swap comm_add)
          · exact Is.good (n := 2) ⟨rfl, fun _ _ ht => cADDW_reads hr.1 hr.2 ht⟩ (swap comm_addw)
          · exact Is.good (n := 2) ⟨rfl, fun _ _ ht => cAND_reads hr.1 hr.2 ht⟩ (swap comm_and)
          · exact Is.good (n := 2) ⟨rfl, fun _ _ ht => cOR_reads hr.1 hr.2 ht⟩ (swap comm_or)
          · exact Is.good (n := 2) ⟨rfl, fun _ _ ht => cXOR_reads hr.1 hr.2 ht⟩ (swap comm_xor)
        · cases hc
      · exact l
    · exact l

theorem mv_is {d a : Nat} (hd : d < 32) (ha : a < 32) :
    Is (asmMv d a) (if a ≠ 0 then .r .add d 0 a else .i .addi d 0 0) 2 := by
  unfold asmMv
  by_cases h : a = 0
  · subst h
    simp only [ne_eq, not_true_eq_false, if_false]
    exact ⟨rfl, fun _ _ ht => cLI_reads hd (by omega) (by omega) ht⟩
  · simp only [ne_eq, h, not_false_eq_true, if_true]
    exact ⟨rfl, fun _ _ ht => cMV_reads hd ha h ht⟩

theorem mv_exec (M : Machine ρ) (d a n : Nat) (s : St ρ) :
    exec M (if a ≠ 0 then .r .add d 0 a else .i .addi d 0 0) n s = (s.set d (s.get a)).next n := by
  by_cases h : a = 0
  · subst h
    rfl
  · simp only [ne_eq, h, not_false_eq_true, if_true]
    show (s.set d (0#64 + s.get a)).next n = _
    rw [BitVec.zero_add]

theorem mv_good (M : Machine ρ) {d a : Nat} (hd : d < 32) (ha : a < 32) : Good M (.mv d a) (asmMv d a) :=
  (mv_is hd ha).good (mv_exec M d a 2)

theorem set_get (s : St ρ) (d : Nat) : s.set d (s.get d) = s := by
  unfold St.set St.get
  by_cases h : d = 0
  · simp [h]
  · simp only [h, if_false]
    have e : (fun q => if q = d then s.x d else s.x q) = s.x := by
      funext q
      by_cases hq : q = d <;> simp [hq]
    rw [e]

theorem long2_good (M : Machine ρ) (op : IOp) {d a : Nat} {v : Int} (hd : d < 32) (ha : a < 32) (hv : (Req.rri op d a v).numbers) :
    ∃ c, long2 op d a v = some c ∧ Good M (.rri op d a v) c ∧ c.length = 4 := by
  refine ⟨wI op d a v, ?_, (wI_is op hd ha hv).good fun _ => rfl, (wI_is op hd ha hv).1⟩
  cases op <;> simp only [Req.numbers, im12] at hv <;> simp only [long2] <;> rw [if_neg] <;> simp <;> omega

theorem short2_good (M : Machine ρ) (op : IOp) {d : Nat} {v : Int} {c : List Nat} (hd : d < 32) (h0 : op = .addiw → d ≠ 0)
    (h : short2 op d v = some c) : Good M (.rri op d d v) c ∧ c.length = 2 := by
  cases op <;> simp only [short2] at h
  case addi =>
    split at h
    · rename_i g
      cases h
      simp only [isIm6, Bool.and_eq_true, decide_eq_true_eq] at g
      exact ⟨Is.good (n := 2) ⟨rfl, fun _ _ ht => cADDI_reads hd (by omega) (by omega) ht⟩ fun _ => rfl, rfl⟩
    · split at h
      · rename_i g
        cases h
        simp only [isIm6, Bool.and_eq_true, decide_eq_true_eq, beq_iff_eq, bne_iff_ne] at g
        obtain ⟨⟨⟨rfl, g1⟩, g2⟩, g3⟩ := g
        exact ⟨Is.good (n := 2) ⟨rfl, fun _ _ ht => cADDI16SP_reads g3 (by omega) (by omega) g2 ht⟩ fun _ => rfl, rfl⟩
      · cases h
  case addiw =>
    split at h
    · rename_i g
      cases h
      simp only [isIm6, decide_eq_true_eq] at g
      exact ⟨Is.good (n := 2) ⟨rfl, fun _ _ ht => cADDIW_reads hd (by omega) (by omega) (h0 rfl) ht⟩ fun _ => rfl, rfl⟩
    · cases h
  case andi =>
    split at h
    · rename_i g
      cases h
      simp only [isIm6, Bool.and_eq_true, decide_eq_true_eq] at g
      exact ⟨Is.good (n := 2) ⟨rfl, fun _ _ ht => cANDI_reads g.2 (by omega) (by omega) ht⟩ fun _ => rfl, rfl⟩
    · cases h
  case slli =>
    split at h
    · rename_i g
      cases h
      simp only [isUim6, Bool.and_eq_true, decide_eq_true_eq] at g
      exact ⟨Is.good (n := 2) ⟨rfl, fun _ _ ht => cSLLI_reads hd (by omega) (by omega) ht⟩ fun _ => rfl, rfl⟩
    · cases h
  case srli =>
    split at h
    · rename_i g
      cases h
      simp only [isUim6, Bool.and_eq_true, decide_eq_true_eq] at g
      exact ⟨Is.good (n := 2) ⟨rfl, fun _ _ ht => cSRLI_reads g.2 (by omega) (by omega) ht⟩ fun _ => rfl, rfl⟩
    · cases h
  case srai =>
    split at h
    · rename_i g
      cases h
      simp only [isUim6, Bool.and_eq_true, decide_eq_true_eq] at g
      exact ⟨Is.good (n := 2) ⟨rfl, fun _ _ ht => cSRAI_reads g.2 (by omega) (by omega) ht⟩ fun _ => rfl, rfl⟩
    · cases h
  all_goals cases h

theorem asm2ri_good (M : Machine ρ) (op : IOp) {d a : Nat} {v : Int} (hd : d < 32) (ha : a < 32) (hv : (Req.rri op d a v).numbers)
    (h0 : op = .addiw → ¬ (d = 0 ∧ a = 0)) : ∃ c, asm2ri op d a v = some c ∧ Good M (.rri op d a v) c ∧ c.length ≤ 4 := by
  unfold asm2ri
  split
  · rename_i g
    obtain ⟨rfl, rfl⟩ := g
    have z : ∀ (n : Nat) (s : St ρ), (s.set d (s.get a)).next n = effect M n (.rri .addi d a 0) s := by
      intro n s
      show _ = (s.set d (s.get a + 0#64)).next n
      rw [BitVec.add_zero]
    refine ⟨_, rfl, ?_⟩
    by_cases e : d = a
    · subst e
      simp only [ne_eq, not_true_eq_false, if_false]
      refine ⟨⟨[], Reads.nil, fun s => ?_⟩, by decide⟩
      show s = effect M 0 _ s
      rw [← z, set_get]
      show s = { s with pc := s.pc + 0#64 }
      rw [BitVec.add_zero]
    · simp only [ne_eq, e, not_false_eq_true, if_true]
      exact ⟨(mv_is hd ha).good fun s => (mv_exec M d a 2 s).trans (z 2 s), by rw [(mv_is hd ha).1]; omega⟩
  · obtain ⟨c, hc, hg, hl⟩ := long2_good M op hd ha hv
    split
    · rename_i e
      subst e
      split
      · rename_i c' hc'
        have := short2_good M op hd (fun e h => h0 e ⟨h, h⟩) hc'
        exact ⟨c', rfl, this.1, by omega⟩
      · exact ⟨c, hc, hg, by omega⟩
    · exact ⟨c, hc, hg, by omega⟩

theorem set0 (s : St ρ) (v : BitVec 64) : s.set 0 v = s := rfl

theorem next_next (s : St ρ) (n m : Nat) : (s.next n).next m = s.next (n + m) := by
  unfold St.next
  simp only [BitVec.ofNat_add, BitVec.add_assoc]

theorem shifts_exec (M : Machine ρ) (right : IOp) (d a n m : Nat) (k : Int) (s : St ρ) :
    exec M (.i right d d k) m (exec M (.i .slli d a k) n s) =
      (s.set d (iEval right (iEval .slli (s.get a) k) k)).next (n + m) := by
  show (((s.set d (iEval .slli (s.get a) k)).next n).set d (iEval right (((s.set d (iEval .slli (s.get a) k)).next n).get d) k)).next m = _
  rw [set_next_set]
  by_cases h : d = 0
  · subst h
    rfl
  · rw [get_set_next h]

theorem shifts_good (M : Machine ρ) (op : UOp) (right : IOp) (hr : right = .srai ∨ right = .srli) {d a : Nat} {k : Int} (hd : d < 32) (ha : a < 32)
    (h1 : 0 ≤ k) (h2 : k < 64) (he : ∀ x, iEval right (iEval .slli x k) k = uEval op x) :
    Good M (.un op d a) (shifts right d a k) ∧ (shifts right d a k).length ≤ 8 := by
  have first : ∃ n, Is (if d = a then cSLLI d k else wI .slli d a k) (.i .slli d a k) n ∧ n ≤ 4 := by
    split
    · rename_i e
      subst e
      exact ⟨2, ⟨rfl, fun _ _ ht => cSLLI_reads hd h1 (by omega) ht⟩, by omega⟩
    · exact ⟨4, wI_is .slli hd ha ⟨h1, h2⟩, by omega⟩
  have second : ∃ n, Is (if rvc d then (if right = .srai then cSRAI d k else cSRLI d k) else wI right d d k) (.i right d d k) n ∧ n ≤ 4 := by
    split
    · rename_i g
      rcases hr with rfl | rfl
      · exact ⟨2, ⟨rfl, fun _ _ ht => cSRAI_reads g h1 (by omega) ht⟩, by omega⟩
      · exact ⟨2, ⟨rfl, fun _ _ ht => cSRLI_reads g h1 (by omega) ht⟩, by omega⟩
    · rcases hr with rfl | rfl
      · exact ⟨4, wI_is .srai hd hd ⟨h1, h2⟩, by omega⟩
      · exact ⟨4, wI_is .srli hd hd ⟨h1, h2⟩, by omega⟩
  obtain ⟨n, hn, ln⟩ := first
  obtain ⟨m, hm, lm⟩ := second
  refine ⟨hn.two hm fun s => ?_, ?_⟩
  · rw [shifts_exec, he]
    rfl
  · unfold shifts
    rw [List.length_append, hn.1, hm.1]
    omega

/-- Shifting left and then right keeps the low bits. -/
theorem shl_sar (x : BitVec 64) (k : Nat) (h0 : 0 < k) (hk : k < 64) :
    iEval .srai (iEval .slli x ((64 - k : Nat) : Int)) ((64 - k : Nat) : Int) = (x.setWidth k).signExtend 64 := by
  have e : (BitVec.ofInt 64 ((64 - k : Nat) : Int)).toNat % 64 = 64 - k := by
    rw [BitVec.ofInt_natCast, BitVec.toNat_ofNat]
    omega
  show (x <<< ((BitVec.ofInt 64 ((64 - k : Nat) : Int)).toNat % 64)).sshiftRight ((BitVec.ofInt 64 ((64 - k : Nat) : Int)).toNat % 64) = _
  rw [e]
  apply BitVec.eq_of_getLsbD_eq
  intro i hi
  rw [BitVec.getLsbD_sshiftRight, BitVec.getLsbD_signExtend, BitVec.getLsbD_setWidth, BitVec.msb_setWidth]
  simp only [BitVec.getLsbD_shiftLeft, BitVec.msb_shiftLeft, BitVec.getMsbD]
  have e1 : 64 - 1 - (64 - k) = k - 1 := by omega
  have e2 : 64 - k + i - (64 - k) = i := by omega
  rw [e1, e2]
  by_cases hik : i < k
  · have f1 : 64 - k + i < 64 := by omega
    have f2 : ¬ 64 ≤ i := by omega
    have f3 : ¬ 64 - k + i < 64 - k := by omega
    simp [hik, f1, f2, f3, hi]
  · have f1 : ¬ 64 - k + i < 64 := by omega
    have f2 : ¬ 64 ≤ i := by omega
    have f3 : 64 - k < 64 := by omega
    simp [hik, f1, f2, f3, hi, h0]

theorem shl_shr (x : BitVec 64) (k : Nat) (h0 : 0 < k) (hk : k < 64) :
    iEval .srli (iEval .slli x ((64 - k : Nat) : Int)) ((64 - k : Nat) : Int) = (x.setWidth k).setWidth 64 := by
  have e : (BitVec.ofInt 64 ((64 - k : Nat) : Int)).toNat % 64 = 64 - k := by
    rw [BitVec.ofInt_natCast, BitVec.toNat_ofNat]
    omega
  show (x <<< ((BitVec.ofInt 64 ((64 - k : Nat) : Int)).toNat % 64)) >>> ((BitVec.ofInt 64 ((64 - k : Nat) : Int)).toNat % 64) = _
  rw [e]
  apply BitVec.eq_of_getLsbD_eq
  intro i hi
  simp only [BitVec.getLsbD_ushiftRight, BitVec.getLsbD_setWidth, BitVec.getLsbD_shiftLeft]
  have e2 : 64 - k + i - (64 - k) = i := by omega
  rw [e2]
  by_cases hik : i < k
  · have f1 : 64 - k + i < 64 := by omega
    have f3 : ¬ 64 - k + i < 64 - k := by omega
    simp [hik, f1, f3, hi]
  · have f1 : ¬ 64 - k + i < 64 := by omega
    simp [hik, f1]


theorem ff_eq (x : BitVec 64) : x &&& BitVec.ofInt 64 0xff = (x.setWidth 8).setWidth 64 := by
  apply BitVec.eq_of_getLsbD_eq
  intro i hi
  rw [BitVec.getLsbD_and, BitVec.getLsbD_setWidth, BitVec.getLsbD_setWidth]
  have e : ∀ j : Fin 64, (BitVec.ofInt 64 0xff).getLsbD j = decide (j.val < 8) := by decide +kernel
  rw [e ⟨i, hi⟩]
  simp only [hi, decide_true, Bool.true_and]
  rw [Bool.and_comm]

theorem sext32_eq (x : BitVec 64) : iEval .addiw x 0 = (x.setWidth 32).signExtend 64 := by
  show word (low x + low (BitVec.ofInt 64 0)) = _
  rw [show low (BitVec.ofInt 64 0) = 0#32 from rfl, BitVec.add_zero]
  rfl

theorem slt_zero (x : BitVec 64) : x.slt 0#64 = decide (x.toInt < 0) := by
  simp [BitVec.slt]

theorem zero_slt (x : BitVec 64) : (0#64).slt x = decide (0 < x.toInt) := by
  simp [BitVec.slt]

theorem seqz_eq (x : BitVec 64) : iEval .sltiu x 1 = uEval .seqz x := by
  show (if x.ult (BitVec.ofInt 64 1) then (1 : BitVec 64) else 0) = if x = 0 then 1 else 0
  have : x.ult (BitVec.ofInt 64 1) = decide (x = 0) := by
    have e : (BitVec.ofInt 64 1).toNat = 1 := rfl
    rw [Bool.eq_iff_iff]
    simp only [BitVec.ult, e, decide_eq_true_eq]
    constructor
    · intro h
      apply BitVec.eq_of_toNat_eq
      show x.toNat = 0
      omega
    · intro h
      rw [h]
      decide
  rw [this]
  simp

theorem snez_eq (x : BitVec 64) : rEval .sltu 0 x = uEval .snez x := by
  show (if (0#64).ult x then (1 : BitVec 64) else 0) = if x = 0 then 0 else 1
  by_cases h : x = 0
  · subst h
    rfl
  · rw [if_neg h, if_pos]
    simp only [BitVec.ult, decide_eq_true_eq]
    have : x.toNat ≠ 0 := fun e => h (BitVec.eq_of_toNat_eq e)
    show 0 < x.toNat
    omega

theorem asm2r_good (M : Machine ρ) (op : UOp) {d a : Nat} (hd : d < 32) (ha : a < 32) (hv : (Req.un op d a).numbers)
    (h0 : op = .sext 32 → ¬ (d = 0 ∧ a = 0)) : Good M (.un op d a) (asm2r op d a) ∧ (asm2r op d a).length ≤ 8 := by
  cases op with
  | neg =>
    refine ⟨(wR_is .sub hd (by decide) ha).good fun s => ?_, (by decide : 4 ≤ 8)⟩
    show (s.set d (0#64 - s.get a)).next 4 = (s.set d (- s.get a)).next 4
    rw [BitVec.zero_sub]
  | not =>
    refine ⟨(wI_is .xori hd ha (by constructor <;> decide)).good fun s => ?_, (by decide : 4 ≤ 8)⟩
    show (s.set d (s.get a ^^^ BitVec.ofInt 64 (-1))).next 4 = (s.set d (~~~ s.get a)).next 4
    rw [show BitVec.ofInt 64 (-1) = BitVec.allOnes 64 from rfl, BitVec.xor_allOnes]
  | seqz =>
    refine ⟨(wI_is .sltiu hd ha (by constructor <;> decide)).good fun s => ?_, (by decide : 4 ≤ 8)⟩
    show (s.set d (iEval .sltiu (s.get a) 1)).next 4 = _
    rw [seqz_eq]
    rfl
  | snez =>
    refine ⟨(wR_is .sltu hd (by decide) ha).good fun s => ?_, (by decide : 4 ≤ 8)⟩
    show (s.set d (rEval .sltu 0 (s.get a))).next 4 = _
    rw [snez_eq]
    rfl
  | sltz =>
    refine ⟨(wR_is .slt hd ha (by decide)).good fun s => ?_, (by decide : 4 ≤ 8)⟩
    show (s.set d (if (s.get a).slt 0#64 then 1 else 0)).next 4 = (s.set d (if (s.get a).toInt < 0 then 1 else 0)).next 4
    rw [slt_zero]
    simp
  | sgtz =>
    refine ⟨(wR_is .slt hd (by decide) ha).good fun s => ?_, (by decide : 4 ≤ 8)⟩
    show (s.set d (if (0#64).slt (s.get a) then 1 else 0)).next 4 = (s.set d (if 0 < (s.get a).toInt then 1 else 0)).next 4
    rw [zero_slt]
    simp
  | sext k =>
    rcases hv with rfl | rfl | rfl
    · exact shifts_good M _ .srai (.inl rfl) hd ha (by omega) (by omega) fun x => shl_sar x 8 (by omega) (by omega)
    · exact shifts_good M _ .srai (.inl rfl) hd ha (by omega) (by omega) fun x => shl_sar x 16 (by omega) (by omega)
    · show Good M _ (if d = a then cADDIW d 0 else wI .addiw d a 0) ∧ (if d = a then cADDIW d 0 else wI .addiw d a 0).length ≤ 8
      have hx : ∀ (n : Nat) (s : St ρ), exec M (.i .addiw d a 0) n s = effect M n (.un (.sext 32) d a) s := by
        intro n s
        show (s.set d (iEval .addiw (s.get a) 0)).next n = _
        rw [sext32_eq]
        rfl
      split
      · rename_i e
        subst e
        exact ⟨Is.good (n := 2) ⟨rfl, fun _ _ ht => cADDIW_reads hd (by omega) (by omega) (fun h => h0 rfl ⟨h, h⟩) ht⟩ (hx 2),
          (by decide : 2 ≤ 8)⟩
      · exact ⟨(wI_is .addiw hd ha (by constructor <;> decide)).good (hx 4), (by decide : 4 ≤ 8)⟩
  | zext k =>
    rcases hv with rfl | rfl | rfl
    · refine ⟨(wI_is .andi hd ha (by constructor <;> decide)).good fun s => ?_, (by decide : 4 ≤ 8)⟩
      show (s.set d (s.get a &&& BitVec.ofInt 64 0xff)).next 4 = _
      rw [ff_eq]
      rfl
    · exact shifts_good M _ .srli (.inr rfl) hd ha (by omega) (by omega) fun x => shl_shr x 16 (by omega) (by omega)
    · exact shifts_good M _ .srli (.inr rfl) hd ha (by omega) (by omega) fun x => shl_shr x 32 (by omega) (by omega)

theorem ld_good (M : Machine ρ) (op : LOp) {d a : Nat} {off : Int} (hd : d < 32) (ha : a < 32) (hv : im12 off)
    (h0 : ¬ (op = .ld ∧ d = 0 ∧ a = 2)) : Good M (.load op d a off) (asmLd op d a off) ∧ (asmLd op d a off).length ≤ 4 := by
  simp only [asmLd]
  split
  · rename_i g
    obtain ⟨rfl, g1, g2, g3, g4, g5⟩ := g
    exact ⟨Is.good (n := 2) ⟨rfl, fun _ _ ht => cLW_reads g4 g5 g1 g2 g3 ht⟩ fun _ => rfl, (by decide : 2 ≤ 4)⟩
  · split
    · rename_i g
      obtain ⟨rfl, g1, g2, g3, rfl⟩ := g
      exact ⟨Is.good (n := 2) ⟨rfl, fun _ _ ht => cLDSP_reads hd (fun h => h0 ⟨rfl, h, rfl⟩) g1 g2 g3 ht⟩ fun _ => rfl, (by decide : 2 ≤ 4)⟩
    · split
      · rename_i g
        obtain ⟨rfl, g1, g2, g3, g4, g5⟩ := g
        exact ⟨Is.good (n := 2) ⟨rfl, fun _ _ ht => cLD_reads g4 g5 g1 g2 g3 ht⟩ fun _ => rfl, (by decide : 2 ≤ 4)⟩
      · refine ⟨Is.good (n := 4) (i := .load op d a off) ⟨rfl, fun _ _ ht => load_reads op ?_ ?_ hd ha hv ht⟩ fun _ => rfl,
          (by decide : 4 ≤ 4)⟩ <;> cases op <;> first | rfl | decide

theorem sd_good (M : Machine ρ) (op : SOp) {d a : Nat} {off : Int} (hd : d < 32) (ha : a < 32) (hv : im12 off)
    (h0 : ¬ (op = .sw ∧ rvc d ∧ rvc a ∧ 0 ≤ off ∧ off < 128 ∧ off % 8 = 4)) :
    Good M (.store op d a off) (asmSd op d a off) ∧ (asmSd op d a off).length ≤ 4 := by
  simp only [asmSd]
  split
  · rename_i g
    obtain ⟨rfl, g1, g2, g3, g4, g5⟩ := g
    have g6 : off % 8 = 0 := by
      have : ¬ off % 8 = 4 := fun h => h0 ⟨rfl, g5, g4, g1, g2, h⟩
      omega
    exact ⟨Is.good (n := 2) ⟨rfl, fun _ _ ht => cSW_reads g5 g4 g1 g2 g6 ht⟩ fun _ => rfl, (by decide : 2 ≤ 4)⟩
  · split
    · rename_i g
      obtain ⟨rfl, g1, g2, g3, rfl⟩ := g
      exact ⟨Is.good (n := 2) ⟨rfl, fun _ _ ht => cSDSP_reads hd g1 g2 g3 ht⟩ fun _ => rfl, (by decide : 2 ≤ 4)⟩
    · split
      · rename_i g
        obtain ⟨rfl, g1, g2, g3, g4, g5⟩ := g
        exact ⟨Is.good (n := 2) ⟨rfl, fun _ _ ht => cSD_reads g5 g4 g1 g2 g3 ht⟩ fun _ => rfl, (by decide : 2 ≤ 4)⟩
      · refine ⟨Is.good (n := 4) (i := .store op d a off) ⟨rfl, fun _ _ ht => store_reads op ?_ ?_ hd ha hv ht⟩ fun _ => rfl,
          (by decide : 4 ≤ 4)⟩ <;> cases op <;> first | rfl | decide

theorem fld_good (M : Machine ρ) (b : Bool) {d a : Nat} {off : Int} (hd : d < 32) (ha : a < 32) (hv : im12 off) :
    Good M (.fload b d a off) (asmFld b d a off) ∧ (asmFld b d a off).length ≤ 4 := by
  simp only [asmFld]
  split
  · rename_i g
    obtain ⟨rfl, g1, g2, g3, rfl⟩ := g
    exact ⟨Is.good (n := 2) ⟨rfl, fun _ _ ht => cFLDSP_reads hd g1 g2 g3 ht⟩ fun _ => rfl, (by decide : 2 ≤ 4)⟩
  · split
    · rename_i g
      obtain ⟨rfl, g1, g2, g3, g4, g5⟩ := g
      exact ⟨Is.good (n := 2) ⟨rfl, fun _ _ ht => cFLD_reads g4 g5 g1 g2 g3 ht⟩ fun _ => rfl, (by decide : 2 ≤ 4)⟩
    · exact ⟨Is.good (n := 4) ⟨rfl, fun _ _ ht => fload_reads b hd ha hv ht⟩ fun _ => rfl, (by decide : 4 ≤ 4)⟩

theorem fsd_good (M : Machine ρ) (b : Bool) {d a : Nat} {off : Int} (hd : d < 32) (ha : a < 32) (hv : im12 off) :
    Good M (.fstore b d a off) (asmFsd b d a off) ∧ (asmFsd b d a off).length ≤ 4 := by
  simp only [asmFsd]
  split
  · rename_i g
    obtain ⟨rfl, g1, g2, g3, rfl⟩ := g
    exact ⟨Is.good (n := 2) ⟨rfl, fun _ _ ht => cFSDSP_reads hd g1 g2 g3 ht⟩ fun _ => rfl, (by decide : 2 ≤ 4)⟩
  · split
    · rename_i g
      obtain ⟨rfl, g1, g2, g3, g4, g5⟩ := g
      exact ⟨Is.good (n := 2) ⟨rfl, fun _ _ ht => cFSD_reads g5 g4 g1 g2 g3 ht⟩ fun _ => rfl, (by decide : 2 ≤ 4)⟩
    · exact ⟨Is.good (n := 4) ⟨rfl, fun _ _ ht => fstore_reads b hd ha hv ht⟩ fun _ => rfl, (by decide : 4 ≤ 4)⟩

theorem call_hi (v : Int) (h1 : -2 ^ 31 ≤ v) (h2 : v < 2 ^ 31) : sgn 20 (ext v 31 12) = v / 4096 := by
  have e := ext_val v 31 12
  have p1 : (2 : Int) ^ 12 = 4096 := rfl
  have p2 : (2 : Int) ^ (31 - 12 + 1) = 1048576 := rfl
  have p3 : (2 : Int) ^ 20 = 1048576 := rfl
  have p4 : (2 : Nat) ^ (20 - 1) = 524288 := rfl
  rw [p1, p2] at e
  unfold sgn
  rw [p3, p4]
  split <;> omega

theorem call_lo (v : Int) (h : v % 4096 < 2048) : sgn 12 (ext v 11 0) = v % 4096 := by
  have e := ext_val v 11 0
  have p2 : (2 : Int) ^ (11 - 0 + 1) = 4096 := rfl
  have p4 : (2 : Nat) ^ (12 - 1) = 2048 := rfl
  simp only [Int.pow_zero, Int.ediv_one] at e
  rw [p2] at e
  unfold sgn
  rw [p4, if_pos (by omega)]
  exact e

theorem call_good (M : Machine ρ) {off : Int} (h1 : -2 ^ 31 ≤ off) (h2 : off < 2 ^ 31) (h : off % 4096 < 2048) :
    Good M (.call off) (c32 (utype off 1 0x17) ++ c32 (itype off 1 0x00 1 0x67)) := by
  have i1 : Is (c32 (utype off 1 0x17)) (.auipc 1 (off / 4096)) 4 :=
    ⟨rfl, fun _ _ ht => by have := auipc_reads (d := 1) (v := off) (by decide) ht; rwa [call_hi off h1 h2] at this⟩
  have i2 : Is (c32 (itype off 1 0x00 1 0x67)) (.jalr 1 1 (off % 4096)) 4 :=
    ⟨rfl, fun _ _ ht => by have := jalr_reads (d := 1) (a := 1) (off := off) (by decide) (by decide) ht; rwa [call_lo off h] at this⟩
  refine i1.two i2 fun s => ?_
  have e : s.pc + BitVec.ofInt 64 (off / 4096 * 4096) + BitVec.ofInt 64 (off % 4096) = s.pc + BitVec.ofInt 64 off := by
    rw [BitVec.add_assoc, ← BitVec.ofInt_add, show off / 4096 * 4096 + off % 4096 = off by omega]
  show ({ ((s.set 1 (s.pc + BitVec.ofInt 64 (off / 4096 * 4096))).next 4).set 1
      (s.pc + BitVec.ofNat 64 4 + BitVec.ofNat 64 4) with
      pc := even (s.pc + BitVec.ofInt 64 (off / 4096 * 4096) + BitVec.ofInt 64 (off % 4096)) } : St ρ) =
    { s.set 1 (s.pc + BitVec.ofNat 64 8) with pc := even (s.pc + BitVec.ofInt 64 off) }
  rw [e, BitVec.add_assoc]
  simp only [St.set, St.next]
  rw [if_neg (by decide), if_neg (by decide), if_neg (by decide)]
  congr 1
  funext q
  by_cases hq : q = 1 <;> simp [hq]

end Nature.Riscv
