import Verif.Reloc.Bytes
/-!
# A piece of the amd64 processor (specification)

Decoding and effect of the few instructions that occur in accesses through the global offset table and to thread-local variables,
written from the instruction set manual.  Nothing here refers to the linker.
-/
namespace Nature.Reloc.X86

abbrev Word := BitVec 64

/-- The state.  `mem a` is the 8-byte number at `a`; `stack` holds the return addresses pushed by calls; `flags` is `none` after an
arithmetic instruction. -/
@[ext] structure Machine where
  reg : Nat → Word
  mem : Word → Word
  fs : Word
  ip : Word
  stack : List Word
  flags : Option (BitVec 6)

def Machine.set (m : Machine) (r : Nat) (x : Word) : Machine := { m with reg := fun i => if i = r then x else m.reg i }

/-- A result of 64 bits, or of 32 bits with the upper half cleared. -/
def sized (wide : Bool) (x : Word) : Word := if wide then x else (x.setWidth 32).setWidth 64

/-- Instructions; `wide` is the operand size of 64 bits, displacements and immediates are signed. -/
inductive Insn
  | nop
  /-- `mov r, [rip + d]` -/
  | load (wide : Bool) (r : Nat) (d : Int)
  /-- `lea r, [rip + d]` -/
  | lea (wide : Bool) (r : Nat) (d : Int)
  /-- `call [rip + d]`, `jmp [rip + d]`, `call rip + d`, `jmp rip + d` -/
  | callMem (d : Int) | jmpMem (d : Int) | call (d : Int) | jmp (d : Int)
  /-- `mov r, i` -/
  | movImm (wide : Bool) (r : Nat) (i : Int)
  /-- `add r, i`, `sub rax, i` -/
  | addImm (wide : Bool) (r : Nat) (i : Int) | subImm (wide : Bool) (i : Int)
  /-- `xor r, s` -/
  | xor (wide : Bool) (r s : Nat)
  /-- `mov r, fs:[d]`, `mov r, fs:[s]` -/
  | fsAbs (wide : Bool) (r : Nat) (d : Int) | fsReg (wide : Bool) (r s : Nat)
deriving DecidableEq, Repr

/-- The effect; `m.ip` is already the address of the following instruction. -/
def Insn.exec (i : Insn) (m : Machine) : Machine :=
  match i with
  | .nop => m
  | .load w r d => m.set r (sized w (m.mem (m.ip + BitVec.ofInt 64 d)))
  | .lea w r d => m.set r (sized w (m.ip + BitVec.ofInt 64 d))
  | .callMem d => { m with stack := m.ip :: m.stack, ip := m.mem (m.ip + BitVec.ofInt 64 d) }
  | .jmpMem d => { m with ip := m.mem (m.ip + BitVec.ofInt 64 d) }
  | .call d => { m with stack := m.ip :: m.stack, ip := m.ip + BitVec.ofInt 64 d }
  | .jmp d => { m with ip := m.ip + BitVec.ofInt 64 d }
  | .movImm w r i => m.set r (sized w (BitVec.ofInt 64 i))
  | .addImm w r i => { m.set r (sized w (m.reg r + BitVec.ofInt 64 i)) with flags := none }
  | .subImm w i => { m.set 0 (sized w (m.reg 0 - BitVec.ofInt 64 i)) with flags := none }
  | .xor w r s => { m.set r (sized w (m.reg r ^^^ m.reg s)) with flags := none }
  | .fsAbs w r d => m.set r (sized w (m.mem (m.fs + BitVec.ofInt 64 d)))
  | .fsReg w r s => m.set r (sized w (m.mem (m.fs + m.reg s)))

/-- A signed 32-bit number. -/
def imm32 : Bytes → Option Int
  | a :: b :: c :: d :: _ => some (signedNat 4 (leNat 4 [a, b, c, d]))
  | _ => none

/-- The fields of a ModRM byte. -/
def mod (b : BitVec 8) : BitVec 2 := b.extractLsb' 6 2
def regField (b : BitVec 8) : Nat := (b.extractLsb' 3 3).toNat
def rmField (b : BitVec 8) : Nat := (b.extractLsb' 0 3).toNat

/-- The number of a register: the field and its extension bit. -/
def regNo (ext : Bool) (f : Nat) : Nat := if ext then 8 + f else f

/-- Opcode, ModRM and immediate, with the bits of the REX prefix: the instruction and its length. -/
def decodeOp (w r b : Bool) : Bytes → Option (Insn × Nat)
  | [] => none
  | op :: l =>
    if op = 0x90#8 then some (.nop, 1)
    else if op = 0xe8#8 then (imm32 l).map fun d => (.call d, 5)
    else if op = 0xe9#8 then (imm32 l).map fun d => (.jmp d, 5)
    else if op = 0x2d#8 then (imm32 l).map fun i => (.subImm w i, 5)
    else match l with
      | [] => none
      | m :: l =>
        if op = 0x31#8 then if mod m = 3#2 then some (.xor w (regNo b (rmField m)) (regNo r (regField m)), 2) else none
        else (imm32 l).bind fun d =>
          if mod m = 0#2 ∧ rmField m = 5 then
            if op = 0x8b#8 then some (.load w (regNo r (regField m)) d, 6)
            else if op = 0x8d#8 then some (.lea w (regNo r (regField m)) d, 6)
            else if op = 0xff#8 ∧ regField m = 2 then some (.callMem d, 6)
            else if op = 0xff#8 ∧ regField m = 4 then some (.jmpMem d, 6)
            else none
          else if mod m = 3#2 ∧ regField m = 0 then
            if op = 0xc7#8 then some (.movImm w (regNo b (rmField m)) d, 6)
            else if op = 0x81#8 then some (.addImm w (regNo b (rmField m)) d, 6)
            else none
          else none

/-- The same behind an FS prefix: loads with an absolute or a register address. -/
def decodeFs (w r b : Bool) : Bytes → Option (Insn × Nat)
  | op :: m :: l =>
    if op = 0x8b#8 ∧ mod m = 0#2 then
      if rmField m = 4 then
        match l with
        | sib :: l => if sib = 0x25#8 then (imm32 l).map fun d => (.fsAbs w (regNo r (regField m)) d, 7) else none
        | [] => none
      else if rmField m = 5 then none
      else some (.fsReg w (regNo r (regField m)) (regNo b (rmField m)), 2)
    else none
  | _ => none

/-- Is it a REX prefix? -/
def isRex (b : BitVec 8) : Bool := b.extractLsb' 4 4 == 4#4

/-- With an optional REX prefix. -/
def withRex (f : Bool → Bool → Bool → Bytes → Option (Insn × Nat)) : Bytes → Option (Insn × Nat)
  | [] => none
  | p :: l => if isRex p then (f (p.getLsbD 3) (p.getLsbD 2) (p.getLsbD 0) l).map fun x => (x.1, x.2 + 1) else f false false false (p :: l)

/-- The instruction at the start of the bytes, and its length. -/
def decode : Bytes → Option (Insn × Nat)
  | [] => none
  | p :: l =>
    if p = 0x64#8 then (withRex decodeFs l).map fun x => (x.1, x.2 + 1)
    else if p = 0x66#8 then if l.head? = some 0x90#8 then some (.nop, 2) else none
    else withRex decodeOp (p :: l)

/-- One step of a program whose code `code` lies at address `base`. -/
def step (base : Word) (code : Bytes) (m : Machine) : Option Machine :=
  (decode (code.drop (m.ip - base).toNat)).map fun x => x.1.exec { m with ip := m.ip + BitVec.ofNat 64 x.2 }

/-- `n` steps. -/
def steps (base : Word) (code : Bytes) : Nat → Machine → Option Machine
  | 0, m => some m
  | n + 1, m => (step base code m).bind (steps base code n)

end Nature.Reloc.X86
