import Verif.Reloc.Bytes
/-!
# Branches of arm64 (specification)

What the processor does with the few instructions a far call consists of (Arm Architecture Reference Manual, C6.2: B, BL, ADRP,
ADD (immediate), BR), and what it means that a branch reaches an address.  Nothing here refers to the linker.
-/
namespace Nature.Reloc.Thunk

/-- General registers and the program counter. -/
structure Cpu where
  x : Nat → BitVec 64
  pc : BitVec 64

def Cpu.put (c : Cpu) (r : Nat) (v : BitVec 64) : Cpu := { c with x := fun i => if i = r then v else c.x i }

/-- B: bits 31..26 are 000101. -/
def IsB (w : BitVec 32) : Prop := w.extractLsb' 26 6 = 0b000101#6
/-- BL: bits 31..26 are 100101. -/
def IsBl (w : BitVec 32) : Prop := w.extractLsb' 26 6 = 0b100101#6

/-- One instruction.  `none`: not one of those described here (or one that names the stack pointer or the zero register). -/
def step (w : BitVec 32) (c : Cpu) : Option Cpu :=
  let rd := (w.extractLsb' 0 5).toNat
  let rn := (w.extractLsb' 5 5).toNat
  if w.extractLsb' 26 6 = 0b000101#6 then
    some { c with pc := c.pc + (w.extractLsb' 0 26).signExtend 64 * 4#64 }
  else if w.extractLsb' 26 6 = 0b100101#6 then
    some { (c.put 30 (c.pc + 4#64)) with pc := c.pc + (w.extractLsb' 0 26).signExtend 64 * 4#64 }
  else if w.extractLsb' 24 5 = 0b10000#5 ∧ w.extractLsb' 31 1 = 1#1 then
    if rd = 31 then none
    else some { (c.put rd ((c.pc &&& ~~~ 0xfff#64) + ((w.extractLsb' 5 19 ++ w.extractLsb' 29 2).signExtend 64 <<< 12))) with pc := c.pc + 4#64 }
  else if w.extractLsb' 22 10 = 0b1001000100#10 then
    if rd = 31 ∨ rn = 31 then none
    else some { (c.put rd (c.x rn + (w.extractLsb' 10 12).setWidth 64)) with pc := c.pc + 4#64 }
  else if w.extractLsb' 10 22 = 0b1101011000011111000000#22 ∧ w.extractLsb' 0 5 = 0#5 then
    if rn = 31 then none else some { c with pc := c.x rn }
  else none

/-- `n` instructions of the code `text` that starts at address `base`; `none` if one of them lies outside. -/
def run (base : Nat) (text : Bytes) : Nat → Cpu → Option Cpu
  | 0, c => some c
  | n + 1, c =>
    let a := c.pc.toNat
    if base ≤ a ∧ a + 4 ≤ base + text.length then (step (insn (text.drop (a - base))) c).bind (run base text n) else none

/-- A branch reaches an address: from the branch on the processor gets there, and on the way changes no register but the one
the procedure call standard sets aside for this (x16) and, for a call, the link register, which holds the return address. -/
def Reaches (base : Nat) (text : Bytes) (place target : Nat) (link : Bool) : Prop :=
  ∀ c : Cpu, c.pc = BitVec.ofNat 64 place → ∃ n c', run base text n c = some c' ∧ c'.pc = BitVec.ofNat 64 target ∧
    c'.x 30 = (if link then c.pc + 4#64 else c.x 30) ∧ ∀ r, r ≠ 16 → r ≠ 30 → c'.x r = c.x r

end Nature.Reloc.Thunk
