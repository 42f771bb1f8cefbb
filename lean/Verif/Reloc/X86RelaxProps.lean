import Verif.Reloc.X86RelaxMain
/-!
# C98: rewritten amd64 sequences do what the original ones asked for

`X86RelaxSpec.lean` is a piece of the processor.  The theorems are about `applyPair`, `applyGottpoff` and `applyGotpcrelx`
(X86RelaxModel.lean).
-/
namespace Nature.Reloc.X86

/-- Only `n` bytes from `start` on may have changed. -/
structure Only (start n : Nat) (old new : Bytes) : Prop where
  size : new.length = old.length
  before : new.take start = old.take start
  after : new.drop (start + n) = old.drop (start + n)

/-- The bytes at `start` are these. -/
def At (code : Bytes) (start : Nat) (b : Bytes) : Prop := (code.drop start).take b.length = b

theorem only_splice {d b : Bytes} {s n : Nat} (hn : b.length = n) (h : s + n ≤ d.length) : Only s n d (splice d s b) := by
  subst hn
  exact ⟨splice_length h, splice_take h, splice_drop h⟩

/-- **C98.** General dynamic access: the linker finds `lea rdi, …; call __tls_get_addr` (16 bytes), and after the rewritten bytes `rax`
is the address of the variable in the running thread; the following code goes on at the same place, no other register, no
memory and no other byte of the section has changed.  (`fs:0` holds the thread pointer, as the ABI demands.) -/
theorem C98_general_dynamic {syms : List Sym} {r h : Rel} {data new : Bytes} {mapped : Nat} {v : Vals} (hv : v.Wide) (ht : r.type = 19)
    (ha : applyPair syms r h data mapped v = some new) (base : Nat) (hs : data.length < 2 ^ 64) :
    4 ≤ mapped ∧ At data (mapped - 4) [0x66#8, 0x48#8, 0x8d#8, 0x3d#8] ∧
    (At data (mapped + 4) [0x66#8, 0x66#8, 0x48#8, 0xe8#8] ∨ At data (mapped + 4) [0x66#8, 0x48#8, 0xff#8, 0x15#8]) ∧
    Only (mapped - 4) 16 data new ∧
    ∀ m : Machine, m.ip = BitVec.ofNat 64 base + BitVec.ofNat 64 (mapped - 4) → m.mem m.fs = m.fs →
      steps (BitVec.ofNat 64 base) new 2 m = some
        { m with
          reg := fun i => if i = 0 then m.fs + BitVec.ofInt 64 ((v.S : Int) - v.TP) else m.reg i,
          ip := BitVec.ofNat 64 base + BitVec.ofNat 64 (mapped + 12), flags := none } := by
  unfold applyPair at ha
  split at ha
  · cases ha
  rename_i hval
  have hval : validatePair syms r h data mapped = true := by simpa using hval
  have h34 : ¬ r.type = 34 := by omega
  simp only [if_neg h34] at ha
  obtain ⟨x, hx, e⟩ := Option.bind_eq_some_iff.1 ha
  obtain ⟨ex, x1, x2⟩ := expr_some hv.S (by unfold Wide; omega) hv.TP hx
  obtain rfl := Option.some.inj e
  unfold validatePair at hval
  simp only [Bool.and_eq_true, decide_eq_true_eq, prefixSize, rewriteSize, if_pos ht, if_neg h34, pairBytes] at hval
  obtain ⟨⟨⟨⟨_, hm⟩, hl1⟩, hl2⟩, hb1, hb2⟩ := hval
  have h4 : mapped - 4 + 8 = mapped + 4 := by omega
  rw [h4] at hb2
  refine ⟨hm, by simpa [matches_, At] using hb1, ?_, ?_, ?_⟩
  · split at hb2
    · exact Or.inr (by simpa [matches_, At] using hb2)
    · exact Or.inl (by simpa [matches_, At] using hb2)
  · exact only_splice rfl (by omega)
  · intro m hip hfs
    have d1 : decode ((splice data (mapped - 4)
        ([0x64#8, 0x48#8, 0x8b#8, 0x04#8, 0x25#8, 0x00#8, 0x00#8, 0x00#8, 0x00#8, 0x48#8, 0x81#8, 0xc0#8] ++ le32 x)).drop (mapped - 4)) =
        some (.fsAbs true 0 0, 9) := by
      rw [splice_at (by simp [le32_length]; omega)]
      rfl
    have d2 : decode ((splice data (mapped - 4)
        ([0x64#8, 0x48#8, 0x8b#8, 0x04#8, 0x25#8, 0x00#8, 0x00#8, 0x00#8, 0x00#8, 0x48#8, 0x81#8, 0xc0#8] ++ le32 x)).drop (mapped - 4 + 9)) =
        some (.addImm true 0 x, 7) := by
      rw [splice_at_add (by simp [le32_length]; omega) (by simp [le32_length])]
      exact dec_add x1 x2 _
    have s1 := step_at (by omega) hip d1
    simp only [steps, s1, Option.bind_some]
    have s2 := step_at (base := BitVec.ofNat 64 base)
      (m := (Insn.fsAbs true 0 0).exec { m with ip := BitVec.ofNat 64 base + BitVec.ofNat 64 (mapped - 4 + 9) }) (by omega) rfl d2
    simp only [s2, Option.bind_some, Option.some.injEq]
    have e12 : mapped - 4 + 9 + 7 = mapped + 12 := by omega
    ext1 <;> simp [Insn.exec, Machine.set, sized, e12]
    · funext i
      split
      · rw [hfs, ex]; simp
      · rfl

/-- Local dynamic access: `lea rdi, …; call __tls_get_addr` (12 or 13 bytes) is rewritten, and `rax` becomes the start of the running
thread's block. -/
theorem C98_local_dynamic {syms : List Sym} {r h : Rel} {data new : Bytes} {mapped : Nat} {v : Vals} (hv : v.Wide) (ht : r.type = 20)
    (ha : applyPair syms r h data mapped v = some new) (base : Nat) (hs : data.length < 2 ^ 64) :
    3 ≤ mapped ∧ At data (mapped - 3) [0x48#8, 0x8d#8, 0x3d#8] ∧
    ∃ n k, (n = 12 ∧ k = 3 ∧ At data (mapped + 4) [0xe8#8] ∨ n = 13 ∧ k = 4 ∧ At data (mapped + 4) [0xff#8, 0x15#8]) ∧
    Only (mapped - 3) n data new ∧
    ∀ m : Machine, m.ip = BitVec.ofNat 64 base + BitVec.ofNat 64 (mapped - 3) → m.mem m.fs = m.fs →
      steps (BitVec.ofNat 64 base) new k m = some
        { m with
          reg := fun i => if i = 0 then m.fs + BitVec.ofInt 64 ((v.TLS : Int) - v.TP) else m.reg i,
          ip := BitVec.ofNat 64 base + BitVec.ofNat 64 (mapped - 3 + n), flags := none } := by
  unfold applyPair at ha
  split at ha
  · cases ha
  rename_i hval
  have hval : validatePair syms r h data mapped = true := by simpa using hval
  have h34 : ¬ r.type = 34 := by omega
  have h19 : ¬ r.type = 19 := by omega
  simp only [if_neg h34, if_neg h19] at ha
  obtain ⟨x, hx, e⟩ := Option.bind_eq_some_iff.1 ha
  obtain ⟨ex, x1, x2⟩ := expr_some hv.TP (by unfold Wide; omega) hv.TLS hx
  obtain rfl := Option.some.inj e
  unfold validatePair at hval
  simp only [Bool.and_eq_true, decide_eq_true_eq, prefixSize, rewriteSize, if_neg h19, if_neg h34, pairBytes] at hval
  obtain ⟨⟨⟨⟨_, hm⟩, hl1⟩, hl2⟩, hb1, hb2⟩ := hval
  have h4 : mapped - 3 + 7 = mapped + 4 := by omega
  have h5 : mapped - 3 + 8 = mapped + 5 := by omega
  rw [h4, h5] at hb2
  have run : ∀ (b : Bytes), b.length + (mapped - 3) ≤ data.length → ∀ t : Bytes,
      b = [0x31#8, 0xc0#8] ++ ([0x64#8, 0x48#8, 0x8b#8, 0x00#8] ++ ([0x48#8, 0x2d#8] ++ le32 x ++ t)) →
      ∀ m : Machine, m.ip = BitVec.ofNat 64 base + BitVec.ofNat 64 (mapped - 3) → m.mem m.fs = m.fs →
      steps (BitVec.ofNat 64 base) (splice data (mapped - 3) b) 3 m = some
        { m with
          reg := fun i => if i = 0 then m.fs + BitVec.ofInt 64 ((v.TLS : Int) - v.TP) else m.reg i,
          ip := BitVec.ofNat 64 base + BitVec.ofNat 64 (mapped - 3 + 12), flags := none } := by
    intro b hb t eb m hip hfs
    have hlen : 12 ≤ b.length := by rw [eb]; simp [le32_length]
    have d1 : decode ((splice data (mapped - 3) b).drop (mapped - 3)) = some (.xor false 0 0, 2) := by
      rw [splice_at (by omega), eb]
      rfl
    have d2 : decode ((splice data (mapped - 3) b).drop (mapped - 3 + 2)) = some (.fsReg true 0 0, 4) := by
      rw [splice_at_add (by omega) (by omega), eb]
      rfl
    have d3 : decode ((splice data (mapped - 3) b).drop (mapped - 3 + 2 + 4)) = some (.subImm true x, 6) := by
      rw [Nat.add_assoc, splice_at_add (by omega) (by omega), eb]
      show decode (([0x48#8, 0x2d#8] ++ le32 x ++ t) ++ _) = _
      rw [List.append_assoc]
      exact dec_sub x1 x2 _
    have s1 := step_at (by omega) hip d1
    have s2 := step_at (base := BitVec.ofNat 64 base)
      (m := (Insn.xor false 0 0).exec { m with ip := BitVec.ofNat 64 base + BitVec.ofNat 64 (mapped - 3 + 2) }) (by omega) rfl d2
    have s3 := step_at (base := BitVec.ofNat 64 base)
      (m := (Insn.fsReg true 0 0).exec { (Insn.xor false 0 0).exec { m with ip := BitVec.ofNat 64 base + BitVec.ofNat 64 (mapped - 3 + 2) } with
        ip := BitVec.ofNat 64 base + BitVec.ofNat 64 (mapped - 3 + 2 + 4) }) (by omega) rfl d3
    simp only [steps, s1, s2, s3, Option.bind_some, Option.some.injEq]
    ext1 <;> simp [Insn.exec, Machine.set, sized]
    · funext i
      split
      · rw [hfs, ex]
        have : (v.TP : Int) + 0 - v.TLS = v.TP - v.TLS := by omega
        rw [this, ofInt_sub', ofInt_sub']
        simp only [BitVec.sub_eq_add_neg, BitVec.neg_add, BitVec.neg_neg]
        rw [BitVec.add_comm (-_)]
      · rfl
  by_cases hi : helperIndirect h.type = true
  · simp only [hi, if_true, Bool.and_eq_true, beq_iff_eq] at hb2 hl2 ⊢
    refine ⟨hm, by simpa [matches_, At] using hb1, 13, 4, Or.inr ⟨rfl, rfl, ?_⟩, only_splice rfl (by omega), ?_⟩
    · unfold At
      rw [drop_byte (by omega), drop_byte (by omega), hb2.1, hb2.2]
      rfl
    · intro m hip hfs
      have r3 := run (([0x31#8, 0xc0#8, 0x64#8, 0x48#8, 0x8b#8, 0x00#8, 0x48#8, 0x2d#8] ++ le32 x ++ [0x90#8]).take 13) (by
        simp [le32_length]; omega) [0x90#8] rfl m hip hfs
      have d4 : decode ((splice data (mapped - 3)
          (([0x31#8, 0xc0#8, 0x64#8, 0x48#8, 0x8b#8, 0x00#8, 0x48#8, 0x2d#8] ++ le32 x ++ [0x90#8]).take 13)).drop (mapped - 3 + 12)) =
          some (.nop, 1) := by
        rw [splice_at_add (by simp [le32_length]; omega) (by simp [le32_length])]
        rfl
      rw [steps_succ, r3, Option.bind_some, step_at (by omega) rfl d4]
      rfl
  · have hi : helperIndirect h.type = false := by simpa using hi
    simp only [hi, Bool.false_eq_true, if_false, beq_iff_eq] at hb2 hl2 ⊢
    refine ⟨hm, by simpa [matches_, At] using hb1, 12, 3, Or.inl ⟨rfl, rfl, ?_⟩, only_splice rfl (by omega), ?_⟩
    · unfold At
      rw [drop_byte (by omega), hb2]
      rfl
    · intro m hip hfs
      exact run (([0x31#8, 0xc0#8, 0x64#8, 0x48#8, 0x8b#8, 0x00#8, 0x48#8, 0x2d#8] ++ le32 x ++ [0x90#8]).take 12) (by
        simp [le32_length]; omega) [] rfl m hip hfs

/-- The local dynamic address and the offset in the block (`DTPOFF32`, C97) together are the variable of the running thread. -/
theorem C98_local_dynamic_offset (v : Vals) (fs : Word) :
    fs + BitVec.ofInt 64 ((v.TLS : Int) - v.TP) + BitVec.ofInt 64 (Ty.dtpoff32.value v 0) = fs + BitVec.ofInt 64 ((v.S : Int) - v.TP) := by
  rw [BitVec.add_assoc, ← BitVec.ofInt_add]
  congr 2
  show (v.TLS : Int) - v.TP + (v.S + 0 - v.TLS) = _
  omega

/-- A TLS descriptor call: `lea rax, …; call [rax]` (9 bytes) is rewritten, and `rax` becomes the offset of the variable from the
thread pointer; nothing else changes. -/
theorem C98_descriptor {syms : List Sym} {r h : Rel} {data new : Bytes} {mapped : Nat} {v : Vals} (hv : v.Wide) (ht : r.type = 34)
    (ha : applyPair syms r h data mapped v = some new) (base : Nat) (hs : data.length < 2 ^ 64) :
    3 ≤ mapped ∧ At data (mapped - 3) [0x48#8, 0x8d#8, 0x05#8] ∧ At data (mapped + 4) [0xff#8, 0x10#8] ∧
    Only (mapped - 3) 9 data new ∧
    ∀ m : Machine, m.ip = BitVec.ofNat 64 base + BitVec.ofNat 64 (mapped - 3) →
      steps (BitVec.ofNat 64 base) new 2 m = some
        { m with
          reg := fun i => if i = 0 then BitVec.ofInt 64 ((v.S : Int) - v.TP) else m.reg i,
          ip := BitVec.ofNat 64 base + BitVec.ofNat 64 (mapped + 6) } := by
  unfold applyPair at ha
  split at ha
  · cases ha
  rename_i hval
  have hval : validatePair syms r h data mapped = true := by simpa using hval
  obtain ⟨x, hx, e⟩ := Option.bind_eq_some_iff.1 ha
  obtain ⟨ex, x1, x2⟩ := expr_some hv.S (by unfold Wide; omega) hv.TP hx
  obtain rfl := Option.some.inj e
  unfold validatePair at hval
  have h19 : ¬ r.type = 19 := by omega
  simp only [Bool.and_eq_true, decide_eq_true_eq, prefixSize, rewriteSize, if_neg h19, if_pos ht, pairBytes, beq_iff_eq] at hval
  obtain ⟨⟨⟨⟨_, hm⟩, hl1⟩, hl2⟩, ⟨hb1, hb2⟩, hb3⟩ := hval
  have h4 : mapped - 3 + 7 = mapped + 4 := by omega
  have h5 : mapped - 3 + 8 = mapped + 5 := by omega
  rw [h4] at hb2
  rw [h5] at hb3
  refine ⟨hm, by simpa [matches_, At] using hb1, ?_, only_splice rfl (by omega), ?_⟩
  · unfold At
    rw [drop_byte (by omega), drop_byte (by omega), hb2, hb3]
    rfl
  · intro m hip
    have d1 : decode ((splice data (mapped - 3) ([0x48#8, 0xc7#8, 0xc0#8] ++ le32 x ++ [0x66#8, 0x90#8])).drop (mapped - 3)) =
        some (.movImm true 0 x, 7) := by
      rw [splice_at (by simp [le32_length]; omega), List.append_assoc]
      exact dec_mov0 x1 x2 _
    have d2 : decode ((splice data (mapped - 3) ([0x48#8, 0xc7#8, 0xc0#8] ++ le32 x ++ [0x66#8, 0x90#8])).drop (mapped - 3 + 7)) =
        some (.nop, 2) := by
      rw [splice_at_add (by simp [le32_length]; omega) (by simp [le32_length])]
      rfl
    have s1 := step_at (by omega) hip d1
    have s2 := step_at (base := BitVec.ofNat 64 base)
      (m := (Insn.movImm true 0 x).exec { m with ip := BitVec.ofNat 64 base + BitVec.ofNat 64 (mapped - 3 + 7) }) (by omega) rfl d2
    simp only [steps, s1, s2, Option.bind_some, Option.some.injEq]
    have e12 : mapped - 3 + 7 + 2 = mapped + 6 := by omega
    ext1 <;> simp [Insn.exec, Machine.set, sized, e12]
    · funext i
      split
      · rw [ex]; simp
      · rfl

/-- What the linker writes if it does not rewrite: only the four bytes of the relocation change and show the distance `d`. -/
structure Shown (mapped : Nat) (d : Int) (data orig : Bytes) : Prop where
  only : Only mapped 4 data orig
  field : imm32 (orig.drop mapped) = some d

theorem byte_take {a b : Bytes} {n i : Nat} (h : a.take n = b.take n) (hi : i < n) : byte a i = byte b i := by
  have : (a.take n)[i]? = (b.take n)[i]? := by rw [h]
  rw [List.getElem?_take, List.getElem?_take, if_pos hi, if_pos hi] at this
  simp [byte, this]

theorem drop3 {d : Bytes} {n : Nat} (h3 : 3 ≤ n) (h : n ≤ d.length) :
    d.drop (n - 3) = byte d (n - 3) :: byte d (n - 3 + 1) :: byte d (n - 3 + 2) :: d.drop n := by
  rw [drop_byte (by omega), drop_byte (i := n - 3 + 1) (by omega), drop_byte (i := n - 3 + 1 + 1) (by omega)]
  congr 4
  omega

theorem drop2 {d : Bytes} {n : Nat} (h2 : 2 ≤ n) (h : n ≤ d.length) :
    d.drop (n - 2) = byte d (n - 2) :: byte d (n - 2 + 1) :: d.drop n := by
  rw [drop_byte (by omega), drop_byte (i := n - 2 + 1) (by omega)]
  congr 3
  omega

/-- Initial exec access: if the load of the offset from the table is rewritten, the new instruction leaves the machine in exactly the
state the load would have left it in, given that the table entry holds the offset of the variable from the thread pointer. -/
theorem C98_initial_exec {r : Rel} {data new : Bytes} {mapped : Nat} {v : Vals} (hv : v.Wide)
    (ha : applyGottpoff r data mapped v = some new) (base : Nat) (hs : data.length < 2 ^ 64) :
    3 ≤ mapped ∧ Only (mapped - 3) 7 data new ∧
    ∀ (orig : Bytes) (d : Int) (m : Machine), Shown mapped d data orig → m.ip = BitVec.ofNat 64 base + BitVec.ofNat 64 (mapped - 3) →
      m.mem (BitVec.ofNat 64 base + BitVec.ofNat 64 (mapped + 4) + BitVec.ofInt 64 d) = BitVec.ofInt 64 ((v.S : Int) - v.TP) →
      (steps (BitVec.ofNat 64 base) orig 1 m).isSome ∧
      steps (BitVec.ofNat 64 base) new 1 m = steps (BitVec.ofNat 64 base) orig 1 m := by
  unfold applyGottpoff at ha
  split at ha
  · cases ha
  rename_i h1
  split at ha
  · cases ha
  rename_i h2
  split at ha
  · cases ha
  rename_i hf
  simp only [not_or, Classical.not_not, Nat.not_lt] at h1 h2
  have hf : gottpoffForm data (mapped - 3) = true := by simpa using hf
  obtain ⟨x, hx, e⟩ := Option.bind_eq_some_iff.1 ha
  obtain ⟨ex, x1, x2⟩ := expr_some hv.S (by unfold Wide; omega) hv.TP hx
  obtain rfl := Option.some.inj e
  unfold gottpoffForm at hf
  simp only [Bool.and_eq_true] at hf
  obtain ⟨⟨f1, f2⟩, f3⟩ := hf
  have f2 : byte data (mapped - 3 + 1) = 0x8b#8 := by simpa using f2
  have f3 := (modrm_rip _).1 f3
  refine ⟨h1.2.2, only_splice rfl (by omega), ?_⟩
  intro orig d m sh hip hgot
  have hol : mapped ≤ orig.length := by rw [sh.only.size]; omega
  have bt : ∀ i, i < mapped → byte orig i = byte data i := fun i hi => byte_take sh.only.before hi
  have od := drop3 h1.2.2 hol
  rw [bt _ (by omega), bt _ (by omega), bt _ (by omega), f2] at od
  have nd : (splice data (mapped - 3) ([0x48#8 ||| ((byte data (mapped - 3) &&& 0x04#8) >>> 2), 0xc7#8,
      0xc0#8 ||| (byte data (mapped - 3 + 2) >>> 3 &&& 7#8)] ++ le32 x)).drop (mapped - 3) =
      [0x48#8 ||| ((byte data (mapped - 3) &&& 0x04#8) >>> 2), 0xc7#8, 0xc0#8 ||| (byte data (mapped - 3 + 2) >>> 3 &&& 7#8)] ++
        le32 x ++ data.drop (mapped - 3 + 7) := by
    rw [splice_at (by simp [le32_length]; omega)]
    rfl
  have e7 : mapped - 3 + 7 = mapped + 4 := by omega
  generalize byte data (mapped - 3) = p at *
  generalize byte data (mapped - 3 + 2) = q at *
  have hp : isRex p = true ∧ p.getLsbD 3 = true ∧ isRex (0x48#8 ||| ((p &&& 0x04#8) >>> 2)) = true ∧
      (0x48#8 ||| ((p &&& 0x04#8) >>> 2)).getLsbD 3 = true ∧ (0x48#8 ||| ((p &&& 0x04#8) >>> 2)).getLsbD 0 = p.getLsbD 2 := by
    simp only [Bool.or_eq_true, beq_iff_eq] at f1
    rcases f1 with rfl | rfl <;> decide
  obtain ⟨p1, p2, p3, p4, p5⟩ := hp
  have hq : mod (0xc0#8 ||| (q >>> 3 &&& 7#8)) = 3#2 ∧ regField (0xc0#8 ||| (q >>> 3 &&& 7#8)) = 0 ∧
      rmField (0xc0#8 ||| (q >>> 3 &&& 7#8)) = regField q := by
    exact modrm_target q
  obtain ⟨q1, q2, q3⟩ := hq
  have dO : decode (orig.drop (mapped - 3)) = some (.load true (regNo (p.getLsbD 2) (regField q)) d, 7) := by
    rw [od, (dec_ripRex p1 f3 sh.field).1, p2]
  have dN : decode (([0x48#8 ||| ((p &&& 0x04#8) >>> 2), 0xc7#8, 0xc0#8 ||| (q >>> 3 &&& 7#8)] ++ le32 x ++ data.drop (mapped - 3 + 7))) =
      some (.movImm true (regNo (p.getLsbD 2) (regField q)) x, 7) := by
    show decode ((0x48#8 ||| ((p &&& 0x04#8) >>> 2)) :: (0xc7#8 :: (0xc0#8 ||| (q >>> 3 &&& 7#8)) :: (le32 x ++ _))) = _
    rw [dec_rex p3, p4, p5]
    have e2 : ∀ (a b : Bool) (c : BitVec 8) (l : Bytes), decodeOp true a b (0xc7#8 :: c :: l) = (imm32 l).bind fun d =>
        if mod c = 0#2 ∧ rmField c = 5 then none
        else if mod c = 3#2 ∧ regField c = 0 then some (.movImm true (regNo b (rmField c)) d, 6) else none := fun _ _ _ _ => rfl
    rw [e2, imm32_le32 x1 x2, Option.bind_some, if_neg (by rw [q1]; simp), if_pos ⟨q1, q2⟩, q3]
    rfl
  rw [← nd] at dN
  have sO := step_at (by omega) hip dO
  have sN := step_at (by omega) hip dN
  simp only [steps, sO, sN, Option.bind_some, Option.isSome_some, true_and, Option.some.injEq]
  simp only [Insn.exec, e7, hgot]
  rw [ex, Int.add_zero]

/-- The bytes in front of the field. -/
theorem byte_splice {d b : Bytes} {s i : Nat} (h : s + b.length ≤ d.length) (hi : i < s) : byte (splice d s b) i = byte d i :=
  byte_take (splice_take h) hi

theorem byte_set (d : Bytes) (k i : Nat) (x : BitVec 8) (h : k < d.length) : byte (d.set k x) i = if i = k then x else byte d i := by
  unfold byte
  rw [List.getD_eq_getElem?_getD, List.getD_eq_getElem?_getD, List.getElem?_set]
  by_cases e : k = i
  · subst e; simp [h]
  · have e' : ¬ i = k := fun h => e h.symm
    simp [e, e']

theorem set2 (d : Bytes) {n : Nat} (h : 2 ≤ n) (hn : n ≤ d.length) (x y : BitVec 8) :
    byte ((d.set (n - 2) x).set (n - 1) y) (n - 2) = x ∧ byte ((d.set (n - 2) x).set (n - 1) y) (n - 2 + 1) = y := by
  have l : (d.set (n - 2) x).length = d.length := List.length_set ..
  constructor
  · rw [byte_set _ _ _ _ (by omega), if_neg (by omega), byte_set _ _ _ _ (by omega), if_pos rfl]
  · rw [byte_set _ _ _ _ (by omega), if_pos (by omega)]

/-- What the form test says about the bytes. -/
theorem form_cases {data : Bytes} {mapped type : Nat} (h : gotpcrelxForm data mapped type ≠ .none) :
    mapped + 4 ≤ data.length ∧
    ((type = 42 ∧ 3 ≤ mapped ∧ gotpcrelxForm data mapped type = .lea ∧ isRex (byte data (mapped - 3)) = true ∧
        byte data (mapped - 3 + 1) = 0x8b#8 ∧ mod (byte data (mapped - 3 + 2)) = 0#2 ∧ rmField (byte data (mapped - 3 + 2)) = 5) ∨
     (type = 41 ∧ 2 ≤ mapped ∧ gotpcrelxForm data mapped type = .lea ∧ byte data (mapped - 2) = 0x8b#8 ∧
        mod (byte data (mapped - 2 + 1)) = 0#2 ∧ rmField (byte data (mapped - 2 + 1)) = 5) ∨
     (type = 41 ∧ 2 ≤ mapped ∧ gotpcrelxForm data mapped type = .call ∧ byte data (mapped - 2) = 0xff#8 ∧ byte data (mapped - 2 + 1) = 0x15#8) ∨
     (type = 41 ∧ 2 ≤ mapped ∧ gotpcrelxForm data mapped type = .jump ∧ byte data (mapped - 2) = 0xff#8 ∧ byte data (mapped - 2 + 1) = 0x25#8)) := by
  revert h
  generalize hf : gotpcrelxForm data mapped type = f
  unfold gotpcrelxForm at hf
  intro hne
  split at hf
  · exact absurd hf.symm hne
  rename_i h0
  refine ⟨by omega, ?_⟩
  split at hf
  · rename_i h42
    split at hf
    · exact absurd hf.symm hne
    simp only at hf
    split at hf
    · rename_i hc
      simp only [Bool.and_eq_true, beq_iff_eq] at hc
      refine Or.inl ⟨h42, by omega, hf.symm, (rex_iff _).1 (by simpa using hc.1.1), hc.1.2, (modrm_rip _).1 (by simpa using hc.2)⟩
    · exact absurd hf.symm hne
  · split at hf
    · exact absurd hf.symm hne
    rename_i h41
    have h41 : type = 41 ∧ 2 ≤ mapped := by omega
    split at hf
    · rename_i hc
      simp only [Bool.and_eq_true, beq_iff_eq] at hc
      exact Or.inr (Or.inl ⟨h41.1, h41.2, hf.symm, hc.1, (modrm_rip _).1 (by simpa using hc.2)⟩)
    · split at hf
      · rename_i hc
        simp only [Bool.and_eq_true, beq_iff_eq] at hc
        exact Or.inr (Or.inr (Or.inl ⟨h41.1, h41.2, hf.symm, hc.1, hc.2⟩))
      · split at hf
        · rename_i hc
          simp only [Bool.and_eq_true, beq_iff_eq] at hc
          exact Or.inr (Or.inr (Or.inr ⟨h41.1, h41.2, hf.symm, hc.1, hc.2⟩))
        · exact absurd hf.symm hne

/-- Access through the global offset table: a rewritten load, call or jump leaves the machine in exactly the state the original
instruction would have left it in (return address included), given that the table entry holds the address of the symbol.  This
needs the usual addend −4; the code does not check it, `C98_addend_counterexample`. -/
theorem C98_got_partial {r : Rel} {data new : Bytes} {mapped : Nat} {v : Vals} (hv : v.Wide) (hA : r.addend = -4)
    (ha : applyGotpcrelx r data mapped v = some new) (base : Nat) (hs : data.length < 2 ^ 64) (hP : v.P = base + mapped) :
    ∃ k start, (r.type = 42 ∧ start + 3 = mapped ∨ r.type = 41 ∧ start + 2 = mapped) ∧ Only (mapped - 2) 6 data new ∧
    ∀ (orig : Bytes) (d : Int) (m : Machine), Shown mapped d data orig → m.ip = BitVec.ofNat 64 base + BitVec.ofNat 64 start →
      m.mem (BitVec.ofNat 64 base + BitVec.ofNat 64 (mapped + 4) + BitVec.ofInt 64 d) = BitVec.ofNat 64 v.S →
      (steps (BitVec.ofNat 64 base) orig 1 m).isSome ∧
      steps (BitVec.ofNat 64 base) new k m = steps (BitVec.ofNat 64 base) orig 1 m := by
  unfold applyGotpcrelx at ha
  simp only at ha
  split at ha
  · cases ha
  rename_i hform
  obtain ⟨x, hx, e⟩ := Option.bind_eq_some_iff.1 ha
  obtain ⟨ex, x1, x2⟩ := expr_some hv.S (by rw [hA]; unfold Wide; omega) hv.P hx
  have target : BitVec.ofNat 64 base + BitVec.ofNat 64 (mapped + 4) + BitVec.ofInt 64 x = BitVec.ofNat 64 v.S :=
    reach (by rw [ex, hA, hP]; omega)
  obtain ⟨hl, cases4⟩ := form_cases hform
  have only_of : ∀ (d1 : Bytes), d1.length = data.length → (∀ i, i + 2 < mapped → byte d1 i = byte data i) →
      d1.drop mapped = data.drop mapped → d1.take (mapped - 2) = data.take (mapped - 2) → 2 ≤ mapped →
      Only (mapped - 2) 6 data (splice d1 mapped (le32 x)) := by
    intro d1 h1 _ h3 h4 h5
    have hle : mapped + (le32 x).length ≤ d1.length := by rw [h1]; simp [le32_length]; omega
    refine ⟨by rw [splice_length hle, h1], ?_, ?_⟩
    · have := congrArg (List.take (mapped - 2)) (splice_take hle)
      rw [List.take_take, List.take_take, Nat.min_eq_left (by omega)] at this
      rw [this, h4]
    · have e6 : mapped - 2 + 6 = mapped + (le32 x).length := by simp [le32_length]; omega
      rw [e6, splice_drop hle, ← List.drop_drop, h3, List.drop_drop]
  have im : ∀ (d1 : Bytes), d1.length = data.length → imm32 ((splice d1 mapped (le32 x)).drop mapped) = some x := by
    intro d1 h1
    rw [splice_at (by rw [h1]; simp [le32_length]; omega), imm32_le32 x1 x2]
  rcases cases4 with ⟨ht, h3, hF, b0, b1, b2⟩ | ⟨ht, h3, hF, b0, b2⟩ | ⟨ht, h3, hF, b0, b1⟩ | ⟨ht, h3, hF, b0, b1⟩
  · -- `mov` with a REX prefix
    simp only [hF, if_true] at e
    obtain rfl := Option.some.inj e
    have l1 : (data.set (mapped - 2) 0x8d#8).length = data.length := List.length_set ..
    refine ⟨1, mapped - 3, Or.inl ⟨ht, by omega⟩, ?_, ?_⟩
    · exact only_of _ l1 (fun i hi => by rw [byte_set _ _ _ _ (by omega), if_neg (by omega)])
        (by rw [List.drop_set_of_lt (by omega)]) (by rw [List.take_set_of_le (by omega)]) (by omega)
    intro orig d m sh hip hgot
    have hol : mapped ≤ orig.length := by rw [sh.only.size]; omega
    have bt : ∀ i, i < mapped → byte orig i = byte data i := fun i hi => byte_take sh.only.before hi
    have hnl : mapped + (le32 x).length ≤ (data.set (mapped - 2) 0x8d#8).length := by rw [l1]; simp [le32_length]; omega
    have od := drop3 h3 hol
    rw [bt _ (by omega), bt _ (by omega), bt _ (by omega), b1] at od
    have nd := drop3 (d := splice (data.set (mapped - 2) 0x8d#8) mapped (le32 x)) h3 (by rw [splice_length hnl]; omega)
    rw [byte_splice hnl (by omega), byte_splice hnl (by omega), byte_splice hnl (by omega), byte_set _ _ _ _ (by omega),
      byte_set _ _ _ _ (by omega), byte_set _ _ _ _ (by omega), if_neg (by omega), if_pos (by omega), if_neg (by omega)] at nd
    have dO := (dec_ripRex b0 b2 sh.field).1
    have dN := (dec_ripRex b0 b2 (im _ l1)).2
    rw [← od] at dO
    rw [← nd] at dN
    have sO := step_at (by omega) hip dO
    have sN := step_at (by omega) hip dN
    have e7 : mapped - 3 + 7 = mapped + 4 := by omega
    simp only [steps, sO, sN, Option.bind_some, Option.isSome_some, true_and, Option.some.injEq]
    simp only [Insn.exec, e7, hgot, target]
  · -- `mov` without a prefix
    simp only [hF, if_true] at e
    obtain rfl := Option.some.inj e
    have l1 : (data.set (mapped - 2) 0x8d#8).length = data.length := List.length_set ..
    refine ⟨1, mapped - 2, Or.inr ⟨ht, by omega⟩, ?_, ?_⟩
    · exact only_of _ l1 (fun i hi => by rw [byte_set _ _ _ _ (by omega), if_neg (by omega)])
        (by rw [List.drop_set_of_lt (by omega)]) (by rw [List.take_set_of_le (by omega)]) (by omega)
    intro orig d m sh hip hgot
    have hol : mapped ≤ orig.length := by rw [sh.only.size]; omega
    have bt : ∀ i, i < mapped → byte orig i = byte data i := fun i hi => byte_take sh.only.before hi
    have hnl : mapped + (le32 x).length ≤ (data.set (mapped - 2) 0x8d#8).length := by rw [l1]; simp [le32_length]; omega
    have od := drop2 h3 hol
    rw [bt _ (by omega), bt _ (by omega), b0] at od
    have nd := drop2 (d := splice (data.set (mapped - 2) 0x8d#8) mapped (le32 x)) h3 (by rw [splice_length hnl]; omega)
    rw [byte_splice hnl (by omega), byte_splice hnl (by omega), byte_set _ _ _ _ (by omega),
      byte_set _ _ _ _ (by omega), if_pos rfl, if_neg (by omega)] at nd
    have dO := (dec_rip b2 sh.field).1
    have dN := (dec_rip b2 (im _ l1)).2
    rw [← od] at dO
    rw [← nd] at dN
    have sO := step_at (by omega) hip dO
    have sN := step_at (by omega) hip dN
    have e7 : mapped - 2 + 6 = mapped + 4 := by omega
    simp only [steps, sO, sN, Option.bind_some, Option.isSome_some, true_and, Option.some.injEq]
    simp only [Insn.exec, e7, hgot, target]
  all_goals
    simp only [hF, if_true] at e
    simp only [reduceCtorEq, if_false] at e
    obtain rfl := Option.some.inj e
    refine ⟨2, mapped - 2, Or.inr ⟨ht, by omega⟩, ?_, ?_⟩
    · exact only_of _ (by rw [List.length_set, List.length_set]) (fun i hi => by
        rw [byte_set _ _ _ _ (by rw [List.length_set]; omega), if_neg (by omega), byte_set _ _ _ _ (by omega), if_neg (by omega)])
        (by rw [List.drop_set_of_lt (by omega), List.drop_set_of_lt (by omega)])
        (by rw [List.take_set_of_le (by omega), List.take_set_of_le (by omega)]) (by omega)
    intro orig d m sh hip hgot
    have hol : mapped ≤ orig.length := by rw [sh.only.size]; omega
    have bt : ∀ i, i < mapped → byte orig i = byte data i := fun i hi => byte_take sh.only.before hi
    have od := drop2 h3 hol
    rw [bt _ (by omega), bt _ (by omega), b0, b1] at od
    have e7 : mapped - 2 + 6 = mapped + 4 := by omega
    have e8 : mapped - 2 + 1 + 5 = mapped + 4 := by omega
  · have l1 : ((data.set (mapped - 2) 0x90#8).set (mapped - 1) 0xe8#8).length = data.length := by rw [List.length_set, List.length_set]
    have hnl : mapped + (le32 x).length ≤ ((data.set (mapped - 2) 0x90#8).set (mapped - 1) 0xe8#8).length := by
      rw [l1]; simp [le32_length]; omega
    have nd := drop2 (d := splice ((data.set (mapped - 2) 0x90#8).set (mapped - 1) 0xe8#8) mapped (le32 x)) h3 (by
      rw [splice_length hnl]; omega)
    rw [byte_splice hnl (by omega), byte_splice hnl (by omega), (set2 data h3 (by omega) _ _).1, (set2 data h3 (by omega) _ _).2,
      splice_at hnl] at nd
    have dO := (dec_indirect sh.field).1
    rw [← od] at dO
    have dN1 : decode (splice ((data.set (mapped - 2) 0x90#8).set (mapped - 1) 0xe8#8) mapped (le32 x) |>.drop (mapped - 2)) =
        some (.nop, 1) := by rw [nd]; rfl
    have dN2 : decode (splice ((data.set (mapped - 2) 0x90#8).set (mapped - 1) 0xe8#8) mapped (le32 x) |>.drop (mapped - 2 + 1)) =
        some (.call x, 5) := by
      rw [← List.drop_drop, nd]
      exact dec_call x1 x2 _
    have sO := step_at (by omega) hip dO
    have sN1 := step_at (by omega) hip dN1
    have sN2 := step_at (base := BitVec.ofNat 64 base)
      (m := Insn.nop.exec { m with ip := BitVec.ofNat 64 base + BitVec.ofNat 64 (mapped - 2 + 1) }) (by omega) rfl dN2
    simp only [steps, sO, sN1, sN2, Option.bind_some, Option.isSome_some, true_and, Option.some.injEq]
    simp only [Insn.exec, e7, e8, hgot, target]
  · have l1 : ((data.set (mapped - 2) 0x90#8).set (mapped - 1) 0xe9#8).length = data.length := by rw [List.length_set, List.length_set]
    have hnl : mapped + (le32 x).length ≤ ((data.set (mapped - 2) 0x90#8).set (mapped - 1) 0xe9#8).length := by
      rw [l1]; simp [le32_length]; omega
    have nd := drop2 (d := splice ((data.set (mapped - 2) 0x90#8).set (mapped - 1) 0xe9#8) mapped (le32 x)) h3 (by
      rw [splice_length hnl]; omega)
    rw [byte_splice hnl (by omega), byte_splice hnl (by omega), (set2 data h3 (by omega) _ _).1, (set2 data h3 (by omega) _ _).2,
      splice_at hnl] at nd
    have dO := (dec_indirect sh.field).2
    rw [← od] at dO
    have dN1 : decode (splice ((data.set (mapped - 2) 0x90#8).set (mapped - 1) 0xe9#8) mapped (le32 x) |>.drop (mapped - 2)) =
        some (.nop, 1) := by rw [nd]; rfl
    have dN2 : decode (splice ((data.set (mapped - 2) 0x90#8).set (mapped - 1) 0xe9#8) mapped (le32 x) |>.drop (mapped - 2 + 1)) =
        some (.jmp x, 5) := by
      rw [← List.drop_drop, nd]
      exact dec_jmp x1 x2 _
    have sO := step_at (by omega) hip dO
    have sN1 := step_at (by omega) hip dN1
    have sN2 := step_at (base := BitVec.ofNat 64 base)
      (m := Insn.nop.exec { m with ip := BitVec.ofNat 64 base + BitVec.ofNat 64 (mapped - 2 + 1) }) (by omega) rfl dN2
    simp only [steps, sO, sN1, sN2, Option.bind_some, Option.isSome_some, true_and, Option.some.injEq]
    simp only [Insn.exec, e7, e8, hgot, target]

/-- A relaxation that was planned because the distance fits does not fail afterwards. -/
theorem C98_planned {r : Rel} {data : Bytes} {mapped : Nat} {v : Vals} (hv : v.Wide) (hA : Wide r.addend)
    (hf : gotpcrelxForm data mapped r.type ≠ .none) (h : directFits v.S r.addend v.P = true) :
    ∃ new, applyGotpcrelx r data mapped v = some new := by
  have hx : expressionSigned v.S r.addend v.P 32 = some ((v.S : Int) + r.addend - v.P) := by
    rw [expressionSigned_iff hv.S hA hv.P (by omega) (by omega)]
    refine ⟨rfl, ?_⟩
    unfold directFits at h
    simp only at h
    split at h
    · cases h
    · split at h <;> simp only [decide_eq_true_eq] at h <;> omega
  unfold applyGotpcrelx
  simp only [if_neg hf, hx, Option.bind_some]
  exact ⟨_, rfl⟩

/-- Every pair that is rewritten consists of a thread-local relocation and the relocation of the call that belongs to it: at the right
distance, with the usual addends, and against `__tls_get_addr` or (for descriptors) the same thread-local symbol. -/
theorem C98_pair {syms : List Sym} {r h : Rel} {data new : Bytes} {mapped : Nat} {v : Vals}
    (ha : applyPair syms r h data mapped v = some new) :
    r.addend = -4 ∧ r.sec = h.sec ∧
    ((r.type = 34 ∧ h.type = 35 ∧ h.offset = r.offset + 4 ∧ h.sym = r.sym ∧ h.addend = 0 ∧ ∃ s, syms[r.sym]? = some s ∧ s.tls = true) ∨
     ((r.type = 19 ∨ r.type = 20) ∧ h.addend = -4 ∧ (∃ s, syms[h.sym]? = some s ∧ s.name = "__tls_get_addr" ∧ s.undefined = true) ∧
       (h.type = 2 ∨ h.type = 4 ∨ h.type = 9 ∨ h.type = 41) ∧
       (r.type = 19 → h.offset = r.offset + 8) ∧
       (r.type = 20 → (h.type = 2 ∨ h.type = 4) → h.offset = r.offset + 5) ∧
       (r.type = 20 → (h.type = 9 ∨ h.type = 41) → h.offset = r.offset + 6))) := by
  unfold applyPair at ha
  split at ha
  · cases ha
  rename_i hval
  have hval : validatePair syms r h data mapped = true := by simpa using hval
  unfold validatePair at hval
  simp only [Bool.and_eq_true, decide_eq_true_eq, beq_iff_eq] at hval
  obtain ⟨⟨⟨⟨⟨⟨hp, _⟩, ho⟩, _⟩, _⟩, _⟩, _⟩ := hval
  unfold pairSymbols at hp
  simp only [Bool.and_eq_true, decide_eq_true_eq, beq_iff_eq] at hp
  obtain ⟨⟨⟨⟨hs, _⟩, _⟩, hsec⟩, hm⟩ := hp
  simp only [pairStart, Bool.or_eq_true, beq_iff_eq] at hs
  cases e1 : syms[r.sym]? with
  | none => rw [e1] at hm; cases hm
  | some target =>
    cases e2 : syms[h.sym]? with
    | none => rw [e1, e2] at hm; cases hm
    | some helper =>
      rw [e1, e2] at hm
      simp only at hm
      by_cases h34 : r.type = 34
      · simp only [h34, if_true, Bool.and_eq_true, beq_iff_eq] at hm
        obtain ⟨⟨⟨⟨m1, m2⟩, m3⟩, m4⟩, m5⟩ := hm
        refine ⟨m4, hsec, Or.inl ⟨h34, m1, ?_, m2, m5, target, rfl, m3⟩⟩
        rw [ho]; unfold helperDelta; rw [if_pos h34]
      · simp only [if_neg h34, Bool.and_eq_true, beq_iff_eq] at hm
        obtain ⟨⟨⟨⟨m1, m2⟩, m3⟩, m4⟩, m5⟩ := hm
        simp only [helperType, Bool.or_eq_true, beq_iff_eq] at m1
        refine ⟨m4, hsec, Or.inr ⟨by omega, m5, ⟨helper, rfl, m2, m3⟩, by omega, ?_, ?_, ?_⟩⟩
        · intro h19
          rw [ho]; unfold helperDelta; rw [if_neg h34, if_pos h19]
        · intro h20 hh
          have hi : helperIndirect h.type = false := by unfold helperIndirect; simp only [Bool.or_eq_false_iff, beq_eq_false_iff_ne]; omega
          rw [ho]; unfold helperDelta; rw [if_neg h34, if_neg (by omega), hi]; rfl
        · intro h20 hh
          have hi : helperIndirect h.type = true := by unfold helperIndirect; simp only [Bool.or_eq_true, beq_iff_eq]; omega
          rw [ho]; unfold helperDelta; rw [if_neg h34, if_neg (by omega), hi]; rfl

/-- What the pairing has established after `n` relocations. -/
structure PairInv (syms : List Sym) (data : Bytes) (rels : List Rel) (n : Nat) (pairs : List (Nat × Nat)) : Prop where
  good : ∀ p ∈ pairs, p.1 < n ∧ ∃ r h, rels[p.1]? = some r ∧ rels[p.2]? = some h ∧ pairStart r.type = true ∧ validatePair syms r h data r.offset = true
  all : ∀ j r, j < n → rels[j]? = some r → pairStart r.type = true → ∃ k, (j, k) ∈ pairs
  snd : (pairs.map Prod.snd).Nodup
  fst : (pairs.map Prod.fst).Nodup

theorem pairLoop_inv {syms : List Sym} {data : Bytes} {rels : List Rel} : ∀ {n : Nat} {pairs : List (Nat × Nat)},
    pairLoop syms data rels n = some pairs → PairInv syms data rels n pairs
  | 0, pairs, h => by
    obtain rfl := Option.some.inj h
    exact ⟨by simp, by intro j r hj; omega, by simp, by simp⟩
  | n + 1, pairs, hall => by
    obtain ⟨p0, h0, h1⟩ := Option.bind_eq_some_iff.1 hall
    have inv := pairLoop_inv h0
    unfold pairTurn at h1
    split at h1
    · cases h1
    rename_i r hr
    split at h1
    · rename_i hs
      obtain rfl := Option.some.inj h1
      refine ⟨fun p hp => ⟨by have := (inv.good p hp).1; omega, (inv.good p hp).2⟩, ?_, inv.snd, inv.fst⟩
      intro j r' hj hr' hs'
      by_cases e : j = n
      · subst e
        rw [hr] at hr'
        obtain rfl := Option.some.inj hr'
        rw [hs'] at hs
        cases hs
      · exact inv.all j r' (by omega) hr' hs'
    · rename_i hs
      have hs : pairStart r.type = true := by simpa using hs
      generalize (if r.type = 34 then 4 else if r.type = 19 then 8 else 6) = mx at h1
      split at h1
      · cases h1
      split at h1
      · rename_i k hk
        split at h1
        · cases h1
        rename_i h hh
        split at h1
        · cases h1
        rename_i hnew
        split at h1
        · rename_i hval
          obtain rfl := Option.some.inj h1
          refine ⟨?_, ?_, ?_, ?_⟩
          · intro p hp
            rcases List.mem_append.1 hp with hp | hp
            · exact ⟨by have := (inv.good p hp).1; omega, (inv.good p hp).2⟩
            · rw [List.mem_singleton] at hp
              subst hp
              exact ⟨Nat.lt_succ_self _, r, h, hr, hh, hs, hval⟩
          · intro j r' hj hr' hs'
            by_cases e : j = n
            · subst e
              exact ⟨k, by simp⟩
            · obtain ⟨k', hk'⟩ := inv.all j r' (by omega) hr' hs'
              exact ⟨k', List.mem_append_left _ hk'⟩
          · rw [List.map_append, List.nodup_append]
            refine ⟨inv.snd, by simp, ?_⟩
            intro a ha b hb e
            simp only [List.map_cons, List.map_nil, List.mem_singleton] at hb
            subst hb e
            exact hnew ha
          · rw [List.map_append, List.nodup_append]
            refine ⟨inv.fst, by simp, ?_⟩
            intro a ha b hb e
            simp only [List.map_cons, List.map_nil, List.mem_singleton] at hb
            subst hb e
            obtain ⟨p, hp, hp'⟩ := List.mem_map.1 ha
            have := (inv.good p hp).1
            omega
        · cases h1
      · cases h1

/-- Pairing: if the linker accepts the relocations of a section, every thread-local sequence has exactly one call, no call belongs
to two sequences, and no descriptor call is left over; every pair is one that `applyPair` checks in the same way. -/
theorem C98_pairing {syms : List Sym} {data : Bytes} {rels : List Rel} {pairs : List (Nat × Nat)} (h : prepare syms data rels = some pairs) :
    (∀ (j : Nat) (r : Rel), rels[j]? = some r → r.type = 19 ∨ r.type = 20 ∨ r.type = 34 →
      ∃ k h, (j, k) ∈ pairs ∧ rels[k]? = some h ∧ (∀ k', (j, k') ∈ pairs → k' = k) ∧
        ∀ v, v.Wide → -2 ^ 31 ≤ (v.S : Int) - v.TP → (v.S : Int) - v.TP < 2 ^ 31 → -2 ^ 31 ≤ (v.TP : Int) - v.TLS → (v.TP : Int) - v.TLS < 2 ^ 31 →
          (applyPair syms r h data r.offset v).isSome) ∧
    (∀ j j' k, (j, k) ∈ pairs → (j', k) ∈ pairs → j = j') ∧
    ∀ (k : Nat) (r : Rel), rels[k]? = some r → r.type = 35 → ∃ j, (j, k) ∈ pairs := by
  obtain ⟨p0, h0, h1⟩ := Option.bind_eq_some_iff.1 h
  split at h1
  case isFalse => cases h1
  rename_i hc
  obtain rfl := Option.some.inj h1
  have inv := pairLoop_inv h0
  have uniq : ∀ (l : List (Nat × Nat)) (f g : Nat × Nat → Nat), (l.map f).Nodup → ∀ p q, p ∈ l → q ∈ l → f p = f q → p = q := by
    intro l f g
    induction l with
    | nil => intro _ p q hp; cases hp
    | cons a l ih =>
      intro hn p q hp hq e
      rw [List.map_cons, List.nodup_cons] at hn
      rcases List.mem_cons.1 hp with h1 | h1 <;> rcases List.mem_cons.1 hq with h2 | h2
      · rw [h1, h2]
      · subst h1; exact absurd (List.mem_map.2 ⟨q, h2, e.symm⟩) hn.1
      · subst h2; exact absurd (List.mem_map.2 ⟨p, h1, e⟩) hn.1
      · exact ih hn.2 p q h1 h2 e
  refine ⟨?_, ?_, ?_⟩
  · intro j r hr ht
    have hj : j < rels.length := by
      rw [List.getElem?_eq_some_iff] at hr
      exact hr.1
    have hs : pairStart r.type = true := by simp only [pairStart, Bool.or_eq_true, beq_iff_eq]; omega
    obtain ⟨k, hk⟩ := inv.all j r hj hr hs
    obtain ⟨_, r', h', e1, e2, _, hval⟩ := inv.good _ hk
    rw [hr] at e1
    obtain rfl := Option.some.inj e1
    refine ⟨k, h', hk, e2, fun k' hk' => ?_, ?_⟩
    · exact congrArg Prod.snd (uniq _ Prod.fst Prod.snd inv.fst _ _ hk' hk rfl)
    · intro v hv a1 a2 a3 a4
      have x1 : expressionSigned v.S 0 v.TP 32 = some ((v.S : Int) + 0 - v.TP) := by
        rw [expressionSigned_iff hv.S (by unfold Wide; omega) hv.TP (by omega) (by omega)]
        exact ⟨rfl, by omega, by omega⟩
      have x2 : expressionSigned v.TP 0 v.TLS 32 = some ((v.TP : Int) + 0 - v.TLS) := by
        rw [expressionSigned_iff hv.TP (by unfold Wide; omega) hv.TLS (by omega) (by omega)]
        exact ⟨rfl, by omega, by omega⟩
      unfold applyPair
      rw [hval, x1, x2]
      simp only [Option.bind_some]
      split
      · rename_i hf; cases hf
      · split
        · rfl
        · split <;> rfl
  · intro j j' k h1 h2
    exact congrArg Prod.fst (uniq _ Prod.snd Prod.fst inv.snd _ _ h1 h2 rfl)
  · intro k r hr ht
    have hk : k < rels.length := by
      rw [List.getElem?_eq_some_iff] at hr
      exact hr.1
    unfold pairCheck at hc
    have := List.all_eq_true.1 hc k (List.mem_range.2 hk)
    rw [hr] at this
    simp only [ht, beq_self_eq_true, Bool.true_and, Bool.not_not, Bool.and_eq_true, decide_eq_true_eq] at this
    obtain ⟨p, hp, e⟩ := List.mem_map.1 this.1
    exact ⟨p.1, by rw [← e]; exact hp⟩

section NonVacuous
private def exV : Vals := ⟨0x401003, 0x402010, 0x403008, 0x403000, 8, 0x402000, 0x402040, 0x400000⟩
private def exSyms : List Sym := [⟨"x", true, false⟩, ⟨"__tls_get_addr", false, true⟩]

/-- `mov rax, [rip + x@GOTPCREL]` becomes `lea rax, [rip + x]`. -/
example : applyGotpcrelx ⟨42, 3, -4, 0, 0⟩ [0x48#8, 0x8b#8, 0x05#8, 0#8, 0#8, 0#8, 0#8] 3 exV =
    some [0x48#8, 0x8d#8, 0x05#8, 0x09#8, 0x10#8, 0#8, 0#8] := by decide +kernel

/-- `mov r9, [rip + x@GOTTPOFF]` becomes `mov r9, -0x30`. -/
example : applyGottpoff ⟨22, 3, -4, 0, 0⟩ [0x4c#8, 0x8b#8, 0x0d#8, 0#8, 0#8, 0#8, 0#8] 3 exV =
    some [0x49#8, 0xc7#8, 0xc1#8, 0xd0#8, 0xff#8, 0xff#8, 0xff#8] := by decide +kernel

example : (applyPair exSyms ⟨19, 4, -4, 0, 0⟩ ⟨4, 12, -4, 1, 0⟩
    [0x66#8, 0x48#8, 0x8d#8, 0x3d#8, 0#8, 0#8, 0#8, 0#8, 0x66#8, 0x66#8, 0x48#8, 0xe8#8, 0#8, 0#8, 0#8, 0#8] 4 exV).isSome = true := by
  decide +kernel

example : (applyPair exSyms ⟨20, 3, -4, 0, 0⟩ ⟨41, 9, -4, 1, 0⟩
    [0x48#8, 0x8d#8, 0x3d#8, 0#8, 0#8, 0#8, 0#8, 0xff#8, 0x15#8, 0#8, 0#8, 0#8, 0#8] 3 exV).isSome = true := by decide +kernel

example : (applyPair exSyms ⟨34, 3, -4, 0, 0⟩ ⟨35, 7, 0, 0, 0⟩
    [0x48#8, 0x8d#8, 0x05#8, 0#8, 0#8, 0#8, 0#8, 0xff#8, 0x10#8] 3 exV).isSome = true := by decide +kernel

/-- Two accesses in one section are paired. -/
example : prepare exSyms
    [0x48#8, 0x8d#8, 0x3d#8, 0#8, 0#8, 0#8, 0#8, 0xff#8, 0x15#8, 0#8, 0#8, 0#8, 0#8, 0x48#8, 0x8d#8, 0x05#8, 0#8, 0#8, 0#8, 0#8, 0xff#8, 0x10#8]
    [⟨20, 3, -4, 0, 0⟩, ⟨35, 20, 0, 0, 0⟩, ⟨41, 9, -4, 1, 0⟩, ⟨34, 16, -4, 0, 0⟩] = some [(0, 2), (3, 1)] := by decide +kernel
end NonVacuous

/-- The value of a register after some steps. -/
def after (base : Word) (code : Bytes) (n : Nat) (m : Machine) (r : Nat) : Option Word := (steps base code n m).map fun m => m.reg r

/-- With another addend the rewritten instruction does something else: `mov rax, [rip + x@GOTPCREL + 8]` loads the second word of the
table entry (7 here), the rewritten one computes the address of `x` plus 8. -/
theorem C98_addend_counterexample :
    ∃ (r : Rel) (data new orig : Bytes) (v : Vals) (d : Int) (base : Nat) (m : Machine), v.Wide ∧ v.P = base + 3 ∧
      applyGotpcrelx r data 3 v = some new ∧ Shown 3 d data orig ∧ (v.P : Int) + d = v.G + r.addend ∧ m.ip = BitVec.ofNat 64 base ∧
      m.mem (BitVec.ofNat 64 v.G) = BitVec.ofNat 64 v.S ∧
      after (BitVec.ofNat 64 base) orig 1 m 0 = some 7#64 ∧ after (BitVec.ofNat 64 base) new 1 m 0 = some (BitVec.ofNat 64 v.S + 8#64) := by
  refine ⟨⟨42, 3, 4, 0, 0⟩, [0x48#8, 0x8b#8, 0x05#8, 0#8, 0#8, 0#8, 0#8], [0x48#8, 0x8d#8, 0x05#8, 0x11#8, 0x10#8, 0#8, 0#8],
    [0x48#8, 0x8b#8, 0x05#8, 0x09#8, 0x20#8, 0#8, 0#8], exV, 0x2009, 0x401000,
    ⟨fun _ => 0#64, fun a => if a = 0x403008#64 then 0x402010#64 else 7#64, 0#64, 0x401000#64, [], none⟩, by constructor <;> decide, rfl,
    by decide +kernel, ⟨⟨rfl, rfl, rfl⟩, by decide +kernel⟩, by decide, rfl, rfl, by decide +kernel, by decide +kernel⟩

end Nature.Reloc.X86
