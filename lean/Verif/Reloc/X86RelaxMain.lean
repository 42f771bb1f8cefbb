import Verif.Reloc.X86RelaxSpec
import Verif.Reloc.X86RelaxModel
import Verif.Reloc.X86Main
/-! Lemmas about rewritten instruction sequences: which bytes change, and what the processor reads. -/
namespace Nature.Reloc.X86

theorem le32_length (x : Int) : (le32 x).length = 4 := rfl

theorem imm32_le32 {x : Int} (h1 : -2 ^ 31 ≤ x) (h2 : x < 2 ^ 31) (t : Bytes) : imm32 (le32 x ++ t) = some x := by
  have e : signedNat 4 (leNat 4 (le32 x)) = x := by
    have : leNat 4 (le32 x) = (BitVec.ofInt 32 x).toNat := leNat_writeU32 [] _
    rw [this]
    exact signed_ofInt (n := 4) (by omega) h1 h2
  show some (signedNat 4 (leNat 4 (le32 x))) = some x
  rw [e]

theorem splice_length {d b : Bytes} {s : Nat} (h : s + b.length ≤ d.length) : (splice d s b).length = d.length := by
  simp [splice]; omega

theorem splice_take {d b : Bytes} {s : Nat} (h : s + b.length ≤ d.length) : (splice d s b).take s = d.take s := by
  unfold splice
  rw [List.append_assoc, List.take_append_of_le_length (by simp; omega), List.take_take, Nat.min_self]

theorem splice_at {d b : Bytes} {s : Nat} (h : s + b.length ≤ d.length) : (splice d s b).drop s = b ++ d.drop (s + b.length) := by
  unfold splice
  have e : (d.take s).length = s := by simp; omega
  rw [List.append_assoc, List.drop_append_of_le_length (by omega), List.drop_eq_nil_of_le (by omega), List.nil_append]

theorem splice_drop {d b : Bytes} {s : Nat} (h : s + b.length ≤ d.length) :
    (splice d s b).drop (s + b.length) = d.drop (s + b.length) := by
  rw [← List.drop_drop, splice_at h, List.drop_append_of_le_length (by omega), List.drop_length, List.nil_append]

theorem splice_at_add {d b : Bytes} {s k : Nat} (h : s + b.length ≤ d.length) (hk : k ≤ b.length) :
    (splice d s b).drop (s + k) = b.drop k ++ d.drop (s + b.length) := by
  rw [← List.drop_drop, splice_at h, List.drop_append_of_le_length hk]

/-- The instruction at offset `o`. -/
theorem step_at {base : Word} {code : Bytes} {m : Machine} {o n : Nat} {i : Insn} (ho : o < 2 ^ 64)
    (hip : m.ip = base + BitVec.ofNat 64 o) (hd : decode (code.drop o) = some (i, n)) :
    step base code m = some (i.exec { m with ip := base + BitVec.ofNat 64 (o + n) }) := by
  have e : (m.ip - base).toNat = o := by
    rw [hip, BitVec.add_comm, BitVec.add_sub_cancel, BitVec.toNat_ofNat, Nat.mod_eq_of_lt ho]
  unfold step
  rw [e, hd, hip]
  simp only [Option.map_some]
  rw [BitVec.add_assoc, ← BitVec.ofNat_add]

/-- The last of `n + 1` steps. -/
theorem steps_succ (base : Word) (code : Bytes) (n : Nat) (m : Machine) :
    steps base code (n + 1) m = (steps base code n m).bind (step base code) := by
  induction n generalizing m with
  | zero => show (step base code m).bind (fun m => some m) = _; simp [steps]
  | succ n ih =>
    show (step base code m).bind (steps base code (n + 1)) = ((step base code m).bind (steps base code n)).bind _
    cases step base code m with
    | none => rfl
    | some m' => exact ih m'

theorem ofInt_sub' (a b : Nat) : BitVec.ofInt 64 ((a : Int) - b) = BitVec.ofNat 64 a - BitVec.ofNat 64 b := by
  have h : BitVec.ofInt 64 ((a : Int) - b) + BitVec.ofNat 64 b = BitVec.ofNat 64 a := by
    rw [← BitVec.ofInt_natCast, ← BitVec.ofInt_natCast, ← BitVec.ofInt_add, Int.sub_add_cancel]
  rw [← h, BitVec.add_sub_cancel]

/-- `rip + d` is the target if `d` is the difference. -/
theorem reach {base p t : Nat} {x : Int} (h : x = (t : Int) - (base + p : Nat)) :
    BitVec.ofNat 64 base + BitVec.ofNat 64 p + BitVec.ofInt 64 x = BitVec.ofNat 64 t := by
  rw [h, ofInt_sub', ← BitVec.ofNat_add, BitVec.add_comm, BitVec.sub_add_cancel]

theorem expr_some {b s : Nat} {a x : Int} (hb : b < 2 ^ 64) (ha : Wide a) (hs : s < 2 ^ 64) (h : expressionSigned b a s 32 = some x) :
    x = b + a - s ∧ -2 ^ 31 ≤ x ∧ x < 2 ^ 31 := (expressionSigned_iff hb ha hs (by omega) (by omega) x).1 h

theorem byte_eq {d : Bytes} {i : Nat} (h : i < d.length) : d[i]? = some (byte d i) := by
  simp [byte, List.getElem?_eq_getElem h]

theorem drop_byte {d : Bytes} {i : Nat} (h : i < d.length) : d.drop i = byte d i :: d.drop (i + 1) := by
  rw [List.drop_eq_getElem_cons h]
  simp [byte, List.getElem?_eq_getElem h]

/-! ### The instructions that are written -/

theorem dec_add {x : Int} (h1 : -2 ^ 31 ≤ x) (h2 : x < 2 ^ 31) (t : Bytes) :
    decode ([0x48#8, 0x81#8, 0xc0#8] ++ le32 x ++ t) = some (.addImm true 0 x, 7) := by
  rw [List.append_assoc]
  have e : ∀ l, decode ([0x48#8, 0x81#8, 0xc0#8] ++ l) = ((imm32 l).bind fun d => some (Insn.addImm true 0 d, 6)).map fun y => (y.1, y.2 + 1) :=
    fun l => rfl
  rw [e, imm32_le32 h1 h2]
  rfl

theorem dec_sub {x : Int} (h1 : -2 ^ 31 ≤ x) (h2 : x < 2 ^ 31) (t : Bytes) :
    decode ([0x48#8, 0x2d#8] ++ le32 x ++ t) = some (.subImm true x, 6) := by
  rw [List.append_assoc]
  have e : ∀ l, decode ([0x48#8, 0x2d#8] ++ l) = ((imm32 l).map fun i => (Insn.subImm true i, 5)).map fun y => (y.1, y.2 + 1) :=
    fun l => rfl
  rw [e, imm32_le32 h1 h2]
  rfl

theorem dec_mov0 {x : Int} (h1 : -2 ^ 31 ≤ x) (h2 : x < 2 ^ 31) (t : Bytes) :
    decode ([0x48#8, 0xc7#8, 0xc0#8] ++ le32 x ++ t) = some (.movImm true 0 x, 7) := by
  rw [List.append_assoc]
  have e : ∀ l, decode ([0x48#8, 0xc7#8, 0xc0#8] ++ l) = ((imm32 l).bind fun d => some (Insn.movImm true 0 d, 6)).map fun y => (y.1, y.2 + 1) :=
    fun l => rfl
  rw [e, imm32_le32 h1 h2]
  rfl

theorem dec_call {x : Int} (h1 : -2 ^ 31 ≤ x) (h2 : x < 2 ^ 31) (t : Bytes) :
    decode ([0xe8#8] ++ le32 x ++ t) = some (.call x, 5) := by
  rw [List.append_assoc]
  have e : ∀ l, decode ([0xe8#8] ++ l) = (imm32 l).map fun i => (Insn.call i, 5) := fun l => rfl
  rw [e, imm32_le32 h1 h2]
  rfl

theorem dec_jmp {x : Int} (h1 : -2 ^ 31 ≤ x) (h2 : x < 2 ^ 31) (t : Bytes) :
    decode ([0xe9#8] ++ le32 x ++ t) = some (.jmp x, 5) := by
  rw [List.append_assoc]
  have e : ∀ l, decode ([0xe9#8] ++ l) = (imm32 l).map fun i => (Insn.jmp i, 5) := fun l => rfl
  rw [e, imm32_le32 h1 h2]
  rfl

/-- ModRM with a RIP-relative operand. -/
theorem modrm_rip (m : BitVec 8) : (m &&& 0xc7#8 == 0x05#8) = true ↔ mod m = 0#2 ∧ rmField m = 5 := by
  revert m
  unfold mod rmField
  decide +kernel

theorem rex_iff (p : BitVec 8) : (p &&& 0xf0#8 == 0x40#8) = true ↔ isRex p = true := by
  revert p
  unfold isRex
  decide +kernel

theorem modrm_target (q : BitVec 8) : mod (0xc0#8 ||| (q >>> 3 &&& 7#8)) = 3#2 ∧ regField (0xc0#8 ||| (q >>> 3 &&& 7#8)) = 0 ∧
    rmField (0xc0#8 ||| (q >>> 3 &&& 7#8)) = regField q := by
  revert q
  unfold mod regField rmField
  decide +kernel

/-- A RIP-relative load or `lea`, without prefix. -/
theorem dec_rip {m : BitVec 8} (hm : mod m = 0#2 ∧ rmField m = 5) {d : Int} {l : Bytes} (hl : imm32 l = some d) :
    decode (0x8b#8 :: m :: l) = some (.load false (regField m) d, 6) ∧ decode (0x8d#8 :: m :: l) = some (.lea false (regField m) d, 6) := by
  constructor
  · have e : decode (0x8b#8 :: m :: l) = decodeOp false false false (0x8b#8 :: m :: l) := rfl
    rw [e]
    have e2 : decodeOp false false false (0x8b#8 :: m :: l) = (imm32 l).bind fun d =>
        if mod m = 0#2 ∧ rmField m = 5 then some (.load false (regField m) d, 6)
        else if mod m = 3#2 ∧ regField m = 0 then none else none := rfl
    rw [e2, hl, Option.bind_some, if_pos hm]
  · have e : decode (0x8d#8 :: m :: l) = decodeOp false false false (0x8d#8 :: m :: l) := rfl
    rw [e]
    have e2 : decodeOp false false false (0x8d#8 :: m :: l) = (imm32 l).bind fun d =>
        if mod m = 0#2 ∧ rmField m = 5 then some (.lea false (regField m) d, 6)
        else if mod m = 3#2 ∧ regField m = 0 then none else none := rfl
    rw [e2, hl, Option.bind_some, if_pos hm]

theorem rex_not (p : BitVec 8) (h : isRex p = true) : p ≠ 0x64#8 ∧ p ≠ 0x66#8 := by
  constructor <;> rintro rfl <;> revert h <;> decide

theorem dec_rex {p : BitVec 8} (h : isRex p = true) (l : Bytes) :
    decode (p :: l) = (decodeOp (p.getLsbD 3) (p.getLsbD 2) (p.getLsbD 0) l).map fun x => (x.1, x.2 + 1) := by
  obtain ⟨h1, h2⟩ := rex_not p h
  show (if p = 0x64#8 then _ else if p = 0x66#8 then _ else withRex decodeOp (p :: l)) = _
  rw [if_neg h1, if_neg h2]
  show (if isRex p then _ else _) = _
  rw [if_pos h]

theorem dec_ripRex {p m : BitVec 8} (hp : isRex p = true) (hm : mod m = 0#2 ∧ rmField m = 5) {d : Int} {l : Bytes} (hl : imm32 l = some d) :
    decode (p :: 0x8b#8 :: m :: l) = some (.load (p.getLsbD 3) (regNo (p.getLsbD 2) (regField m)) d, 7) ∧
    decode (p :: 0x8d#8 :: m :: l) = some (.lea (p.getLsbD 3) (regNo (p.getLsbD 2) (regField m)) d, 7) := by
  rw [dec_rex hp, dec_rex hp]
  constructor
  · have e2 : decodeOp (p.getLsbD 3) (p.getLsbD 2) (p.getLsbD 0) (0x8b#8 :: m :: l) = (imm32 l).bind fun d =>
        if mod m = 0#2 ∧ rmField m = 5 then some (.load (p.getLsbD 3) (regNo (p.getLsbD 2) (regField m)) d, 6)
        else if mod m = 3#2 ∧ regField m = 0 then none else none := rfl
    rw [e2, hl, Option.bind_some, if_pos hm]
    rfl
  · have e2 : decodeOp (p.getLsbD 3) (p.getLsbD 2) (p.getLsbD 0) (0x8d#8 :: m :: l) = (imm32 l).bind fun d =>
        if mod m = 0#2 ∧ rmField m = 5 then some (.lea (p.getLsbD 3) (regNo (p.getLsbD 2) (regField m)) d, 6)
        else if mod m = 3#2 ∧ regField m = 0 then none else none := rfl
    rw [e2, hl, Option.bind_some, if_pos hm]
    rfl

theorem dec_indirect {d : Int} {l : Bytes} (hl : imm32 l = some d) :
    decode (0xff#8 :: 0x15#8 :: l) = some (.callMem d, 6) ∧ decode (0xff#8 :: 0x25#8 :: l) = some (.jmpMem d, 6) := by
  constructor
  · have e : decode (0xff#8 :: 0x15#8 :: l) = (imm32 l).bind fun d => some (.callMem d, 6) := rfl
    rw [e, hl]; rfl
  · have e : decode (0xff#8 :: 0x25#8 :: l) = (imm32 l).bind fun d => some (.jmpMem d, 6) := rfl
    rw [e, hl]; rfl

end Nature.Reloc.X86
