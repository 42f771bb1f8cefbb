/-
RISC-V: what the bytes of a program mean to the processor, and what the requests of a compiler's back end mean.
Sources: The RISC-V Instruction Set Manual, volume I, RV64I, M, F, D and C.  Nothing here refers to the encoder.
-/
namespace Nature.Riscv

inductive ROp
  | add | addw | sub | subw | mul | mulw | div | divw | divu | divuw | rem | remw | remu | remuw
  | and | or | xor | sll | sllw | srl | srlw | sra | sraw | slt | sltu
deriving DecidableEq, Repr

inductive IOp
  | addi | addiw | andi | ori | xori | slli | slliw | srli | srliw | srai | sraiw | slti | sltiu
deriving DecidableEq, Repr

inductive LOp
  | lb | lh | lw | ld | lbu | lhu | lwu
deriving DecidableEq, Repr

inductive SOp
  | sb | sh | sw | sd
deriving DecidableEq, Repr

inductive BOp
  | beq | bne | blt | bge | bltu | bgeu
deriving DecidableEq, Repr

/-- `w`, `wu`, `l`, `lu`: 32-bit and 64-bit integers. -/
inductive IntK
  | w | wu | l | lu
deriving DecidableEq, Repr

inductive Arith
  | add | sub | mul | div
deriving DecidableEq, Repr

inductive Sgn
  | j | jn | jx
deriving DecidableEq, Repr

inductive Cmp
  | eq | lt | le
deriving DecidableEq, Repr

/-- Floating point operations; `dbl` for `.d`, `rm` the rounding mode. -/
inductive FFF
  | arith (op : Arith) (dbl : Bool) (rm : Nat)
  | sgnj (k : Sgn) (dbl : Bool)
deriving DecidableEq, Repr

inductive FF
  | sqrt (dbl : Bool) (rm : Nat)
  | widen
  | narrow (rm : Nat)
deriving DecidableEq, Repr

inductive XFF
  | cmp (k : Cmp) (dbl : Bool)
deriving DecidableEq, Repr

inductive XF
  | toInt (k : IntK) (dbl : Bool) (rm : Nat)
  | bits (dbl : Bool)
deriving DecidableEq, Repr

/-- The rounding mode is missing where the conversion is exact. -/
inductive FX
  | fromInt (k : IntK) (dbl : Bool) (rm : Option Nat)
deriving DecidableEq, Repr

/-- Instructions. Registers are numbers below 32. -/
inductive Insn
  | r (op : ROp) (d a b : Nat)
  | i (op : IOp) (d a : Nat) (v : Int)
  | load (op : LOp) (d a : Nat) (off : Int)
  | store (op : SOp) (v a : Nat) (off : Int)
  | fload (dbl : Bool) (d a : Nat) (off : Int)
  | fstore (dbl : Bool) (v a : Nat) (off : Int)
  | lui (d : Nat) (v : Int)
  | auipc (d : Nat) (v : Int)
  | jal (d : Nat) (off : Int)
  | jalr (d a : Nat) (off : Int)
  | branch (op : BOp) (a b : Nat) (off : Int)
  | ecall
  | ebreak
  | fff (op : FFF) (d a b : Nat)
  | ff (op : FF) (d a : Nat)
  | xff (op : XFF) (d a b : Nat)
  | xf (op : XF) (d a : Nat)
  | fx (op : FX) (d a : Nat)
deriving DecidableEq, Repr

/-! ### Decoding -/

/-- The number the low `n` bits `v` represent in two's complement. -/
def sgn (n v : Nat) : Int := if v < 2 ^ (n - 1) then (v : Int) else (v : Int) - 2 ^ n

def rOp (f7 f3 : Nat) : Option ROp :=
  match f7, f3 with
  | 0x00, 0 => some .add
  | 0x20, 0 => some .sub
  | 0x00, 1 => some .sll
  | 0x00, 2 => some .slt
  | 0x00, 3 => some .sltu
  | 0x00, 4 => some .xor
  | 0x00, 5 => some .srl
  | 0x20, 5 => some .sra
  | 0x00, 6 => some .or
  | 0x00, 7 => some .and
  | 0x01, 0 => some .mul
  | 0x01, 4 => some .div
  | 0x01, 5 => some .divu
  | 0x01, 6 => some .rem
  | 0x01, 7 => some .remu
  | _, _ => none

def rOpW (f7 f3 : Nat) : Option ROp :=
  match f7, f3 with
  | 0x00, 0 => some .addw
  | 0x20, 0 => some .subw
  | 0x00, 1 => some .sllw
  | 0x00, 5 => some .srlw
  | 0x20, 5 => some .sraw
  | 0x01, 0 => some .mulw
  | 0x01, 4 => some .divw
  | 0x01, 5 => some .divuw
  | 0x01, 6 => some .remw
  | 0x01, 7 => some .remuw
  | _, _ => none

def iInsn (d f3 a rs2 f7 : Nat) : Option Insn :=
  let v := sgn 12 (f7 * 32 + rs2)
  let sh : Int := ((f7 % 2 * 32 + rs2 : Nat) : Int)
  match f3 with
  | 0 => some (.i .addi d a v)
  | 1 => if f7 / 2 = 0 then some (.i .slli d a sh) else none
  | 2 => some (.i .slti d a v)
  | 3 => some (.i .sltiu d a v)
  | 4 => some (.i .xori d a v)
  | 5 => if f7 / 2 = 0 then some (.i .srli d a sh) else if f7 / 2 = 16 then some (.i .srai d a sh) else none
  | 6 => some (.i .ori d a v)
  | 7 => some (.i .andi d a v)
  | _ => none

def iInsnW (d f3 a rs2 f7 : Nat) : Option Insn :=
  match f3 with
  | 0 => some (.i .addiw d a (sgn 12 (f7 * 32 + rs2)))
  | 1 => if f7 = 0 then some (.i .slliw d a (rs2 : Int)) else none
  | 5 => if f7 = 0 then some (.i .srliw d a (rs2 : Int)) else if f7 = 0x20 then some (.i .sraiw d a (rs2 : Int)) else none
  | _ => none

def lOp : Nat → Option LOp
  | 0 => some .lb
  | 1 => some .lh
  | 2 => some .lw
  | 3 => some .ld
  | 4 => some .lbu
  | 5 => some .lhu
  | 6 => some .lwu
  | _ => none

def sOp : Nat → Option SOp
  | 0 => some .sb
  | 1 => some .sh
  | 2 => some .sw
  | 3 => some .sd
  | _ => none

def bOp : Nat → Option BOp
  | 0 => some .beq
  | 1 => some .bne
  | 4 => some .blt
  | 5 => some .bge
  | 6 => some .bltu
  | 7 => some .bgeu
  | _ => none

/-- Formats of floats: 2 for `.s`, 3 for `.d`. -/
def fmt : Nat → Option Bool
  | 2 => some false
  | 3 => some true
  | _ => none

/-- Rounding modes: rne, rtz, rdn, rup, rmm, and the dynamic one. -/
def rmOk (f3 : Nat) : Bool := decide (f3 ≤ 4 ∨ f3 = 7)

def intK : Nat → Option IntK
  | 0 => some .w
  | 1 => some .wu
  | 2 => some .l
  | 3 => some .lu
  | _ => none

def fInsn (d f3 a rs2 f7 : Nat) : Option Insn :=
  let dbl := decide (f7 % 4 = 1)
  if 2 ≤ f7 % 4 then none
  else
    match f7 / 4 with
    | 0 => if rmOk f3 then some (.fff (.arith .add dbl f3) d a rs2) else none
    | 1 => if rmOk f3 then some (.fff (.arith .sub dbl f3) d a rs2) else none
    | 2 => if rmOk f3 then some (.fff (.arith .mul dbl f3) d a rs2) else none
    | 3 => if rmOk f3 then some (.fff (.arith .div dbl f3) d a rs2) else none
    | 4 =>
      match f3 with
      | 0 => some (.fff (.sgnj .j dbl) d a rs2)
      | 1 => some (.fff (.sgnj .jn dbl) d a rs2)
      | 2 => some (.fff (.sgnj .jx dbl) d a rs2)
      | _ => none
    | 8 =>
      if rmOk f3 then
        if dbl = true ∧ rs2 = 0 then some (.ff .widen d a)
        else if dbl = false ∧ rs2 = 1 then some (.ff (.narrow f3) d a)
        else none
      else none
    | 11 => if rmOk f3 ∧ rs2 = 0 then some (.ff (.sqrt dbl f3) d a) else none
    | 20 =>
      match f3 with
      | 0 => some (.xff (.cmp .le dbl) d a rs2)
      | 1 => some (.xff (.cmp .lt dbl) d a rs2)
      | 2 => some (.xff (.cmp .eq dbl) d a rs2)
      | _ => none
    | 24 => if rmOk f3 then (intK rs2).map fun k => .xf (.toInt k dbl f3) d a else none
    | 26 => if rmOk f3 then (intK rs2).map fun k =>
        .fx (.fromInt k dbl (if dbl = true ∧ (k = IntK.w ∨ k = IntK.wu) then none else some f3)) d a else none
    | 28 => if f3 = 0 ∧ rs2 = 0 then some (.xf (.bits dbl) d a) else none
    | _ => none

/-- The fields of a 32-bit instruction are `f7 rs2 a f3 d op`. -/
def decodeFields (op d f3 a rs2 f7 : Nat) : Option Insn :=
  match op with
  | 0x33 => (rOp f7 f3).map fun o => .r o d a rs2
  | 0x3b => (rOpW f7 f3).map fun o => .r o d a rs2
  | 0x13 => iInsn d f3 a rs2 f7
  | 0x1b => iInsnW d f3 a rs2 f7
  | 0x03 => (lOp f3).map fun o => .load o d a (sgn 12 (f7 * 32 + rs2))
  | 0x23 => (sOp f3).map fun o => .store o rs2 a (sgn 12 (f7 * 32 + d))
  | 0x07 => (fmt f3).map fun b => .fload b d a (sgn 12 (f7 * 32 + rs2))
  | 0x27 => (fmt f3).map fun b => .fstore b rs2 a (sgn 12 (f7 * 32 + d))
  | 0x63 => (bOp f3).map fun o =>
      .branch o a rs2 (sgn 13 (f7 / 64 * 4096 + d % 2 * 2048 + f7 % 64 * 32 + d / 2 * 2))
  | 0x37 => some (.lui d (sgn 20 (f7 * 8192 + rs2 * 256 + a * 8 + f3)))
  | 0x17 => some (.auipc d (sgn 20 (f7 * 8192 + rs2 * 256 + a * 8 + f3)))
  | 0x6f => some (.jal d (sgn 21 (f7 / 64 * 1048576 + (a * 8 + f3) * 4096 + rs2 % 2 * 2048 + f7 % 64 * 32 + rs2 / 2 * 2)))
  | 0x67 => if f3 = 0 then some (.jalr d a (sgn 12 (f7 * 32 + rs2))) else none
  | 0x73 => if d = 0 ∧ f3 = 0 ∧ a = 0 ∧ f7 = 0 then
      (if rs2 = 0 then some .ecall else if rs2 = 1 then some .ebreak else none) else none
  | 0x53 => fInsn d f3 a rs2 f7
  | _ => none

def decode32 (w : Nat) : Option Insn :=
  decodeFields (w % 128) (w / 2 ^ 7 % 32) (w / 2 ^ 12 % 8) (w / 2 ^ 15 % 32) (w / 2 ^ 20 % 32) (w / 2 ^ 25 % 128)

/-- Bits `t … b` of a halfword. -/
def bits (h t b : Nat) : Nat := h / 2 ^ b % 2 ^ (t - b + 1)

def decode16 (h : Nat) : Option Insn :=
  let d := bits h 11 7
  let s := bits h 6 2
  let d' := 8 + bits h 9 7
  let s' := 8 + bits h 4 2
  let imm6 : Int := sgn 6 (bits h 12 12 * 32 + s)
  let sh : Int := ((bits h 12 12 * 32 + s : Nat) : Int)
  let offW : Int := ((bits h 12 10 * 8 + bits h 6 6 * 4 + bits h 5 5 * 64 : Nat) : Int)
  let offD : Int := ((bits h 12 10 * 8 + bits h 6 5 * 64 : Nat) : Int)
  let offB : Int := sgn 9 (bits h 12 12 * 256 + bits h 6 5 * 64 + bits h 2 2 * 32 + bits h 11 10 * 8 + bits h 4 3 * 2)
  match bits h 1 0, bits h 15 13 with
  | 0, 0 =>
    let v := bits h 12 11 * 16 + bits h 10 7 * 64 + bits h 6 6 * 4 + bits h 5 5 * 8
    if v = 0 then none else some (.i .addi s' 2 (v : Int))
  | 0, 1 => some (.fload true s' d' offD)
  | 0, 2 => some (.load .lw s' d' offW)
  | 0, 3 => some (.load .ld s' d' offD)
  | 0, 5 => some (.fstore true s' d' offD)
  | 0, 6 => some (.store .sw s' d' offW)
  | 0, 7 => some (.store .sd s' d' offD)
  | 1, 0 => some (.i .addi d d imm6)
  | 1, 1 => if d = 0 then none else some (.i .addiw d d imm6)
  | 1, 2 => some (.i .addi d 0 imm6)
  | 1, 3 =>
    if d = 2 then
      let v := sgn 10 (bits h 12 12 * 512 + bits h 4 3 * 128 + bits h 5 5 * 64 + bits h 2 2 * 32 + bits h 6 6 * 16)
      if v = 0 then none else some (.i .addi 2 2 v)
    else if imm6 = 0 then none else some (.lui d imm6)
  | 1, 4 =>
    match bits h 11 10 with
    | 0 => some (.i .srli d' d' sh)
    | 1 => some (.i .srai d' d' sh)
    | 2 => some (.i .andi d' d' imm6)
    | _ =>
      match bits h 12 12, bits h 6 5 with
      | 0, 0 => some (.r .sub d' d' s')
      | 0, 1 => some (.r .xor d' d' s')
      | 0, 2 => some (.r .or d' d' s')
      | 0, 3 => some (.r .and d' d' s')
      | 1, 0 => some (.r .subw d' d' s')
      | 1, 1 => some (.r .addw d' d' s')
      | _, _ => none
  | 1, 5 => some (.jal 0 (sgn 12 (bits h 12 12 * 2048 + bits h 8 8 * 1024 + bits h 10 9 * 256 + bits h 6 6 * 128 +
      bits h 7 7 * 64 + bits h 2 2 * 32 + bits h 11 11 * 16 + bits h 5 3 * 2)))
  | 1, 6 => some (.branch .beq d' 0 offB)
  | 1, 7 => some (.branch .bne d' 0 offB)
  | 2, 0 => some (.i .slli d d sh)
  | 2, 1 => some (.fload true d 2 ((bits h 12 12 * 32 + bits h 6 5 * 8 + bits h 4 2 * 64 : Nat) : Int))
  | 2, 2 => if d = 0 then none else some (.load .lw d 2 ((bits h 12 12 * 32 + bits h 6 4 * 4 + bits h 3 2 * 64 : Nat) : Int))
  | 2, 3 => if d = 0 then none else some (.load .ld d 2 ((bits h 12 12 * 32 + bits h 6 5 * 8 + bits h 4 2 * 64 : Nat) : Int))
  | 2, 4 =>
    if bits h 12 12 = 0 then
      (if s = 0 then (if d = 0 then none else some (.jalr 0 d 0)) else some (.r .add d 0 s))
    else if s = 0 then (if d = 0 then some .ebreak else some (.jalr 1 d 0))
    else some (.r .add d d s)
  | 2, 5 => some (.fstore true s 2 ((bits h 12 10 * 8 + bits h 9 7 * 64 : Nat) : Int))
  | 2, 6 => some (.store .sw s 2 ((bits h 12 9 * 4 + bits h 8 7 * 64 : Nat) : Int))
  | 2, 7 => some (.store .sd s 2 ((bits h 12 10 * 8 + bits h 9 7 * 64 : Nat) : Int))
  | _, _ => none

/-- The instruction at the beginning of some bytes and its length: two bytes unless the two lowest bits are ones. -/
def decode1 : List Nat → Option (Insn × Nat)
  | b0 :: b1 :: t =>
    let h := b0 + 256 * b1
    if h % 4 ≠ 3 then (decode16 h).map fun i => (i, 2)
    else if h / 4 % 8 = 7 then none
    else
      match t with
      | b2 :: b3 :: _ => (decode32 (h + 65536 * (b2 + 256 * b3))).map fun i => (i, 4)
      | _ => none
  | _ => none

/-- The bytes are these instructions, with their lengths. -/
inductive Reads : List Nat → List (Insn × Nat) → Prop
  | nil : Reads [] []
  | cons {bytes : List Nat} {i : Insn} {n : Nat} {is : List (Insn × Nat)} :
      decode1 bytes = some (i, n) → Reads (bytes.drop n) is → Reads bytes ((i, n) :: is)

/-! ### What instructions do -/

/-- Integer registers, program counter, and the rest: memory, floating point registers and so on. -/
structure St (ρ : Type) where
  x : Nat → BitVec 64
  pc : BitVec 64
  rest : ρ

/-- What memory and floating point instructions do is left open. -/
structure Machine (ρ : Type) where
  load : LOp → BitVec 64 → ρ → BitVec 64
  store : SOp → BitVec 64 → BitVec 64 → ρ → ρ
  fload : Bool → Nat → BitVec 64 → ρ → ρ
  fstore : Bool → Nat → BitVec 64 → ρ → ρ
  fff : FFF → Nat → Nat → Nat → ρ → ρ
  ff : FF → Nat → Nat → ρ → ρ
  xff : XFF → Nat → Nat → ρ → BitVec 64 × ρ
  xf : XF → Nat → ρ → BitVec 64 × ρ
  fx : FX → Nat → BitVec 64 → ρ → ρ
  ecall : St ρ → St ρ
  ebreak : St ρ → St ρ

/-- Register 0 is the constant zero. -/
def St.get {ρ : Type} (s : St ρ) (r : Nat) : BitVec 64 := if r = 0 then 0 else s.x r

def St.set {ρ : Type} (s : St ρ) (r : Nat) (v : BitVec 64) : St ρ :=
  if r = 0 then s else { s with x := fun q => if q = r then v else s.x q }

/-- A 32-bit result in a register. -/
def word (v : BitVec 32) : BitVec 64 := v.signExtend 64

def low (v : BitVec 64) : BitVec 32 := v.setWidth 32

def divS {n : Nat} (a b : BitVec n) : BitVec n := if b = 0 then -1 else BitVec.ofInt n (a.toInt.tdiv b.toInt)
def divU {n : Nat} (a b : BitVec n) : BitVec n := if b = 0 then -1 else BitVec.ofNat n (a.toNat / b.toNat)
def remS {n : Nat} (a b : BitVec n) : BitVec n := if b = 0 then a else BitVec.ofInt n (a.toInt.tmod b.toInt)
def remU {n : Nat} (a b : BitVec n) : BitVec n := if b = 0 then a else BitVec.ofNat n (a.toNat % b.toNat)

def rEval (op : ROp) (a b : BitVec 64) : BitVec 64 :=
  match op with
  | .add => a + b
  | .addw => word (low a + low b)
  | .sub => a - b
  | .subw => word (low a - low b)
  | .mul => a * b
  | .mulw => word (low a * low b)
  | .div => divS a b
  | .divw => word (divS (low a) (low b))
  | .divu => divU a b
  | .divuw => word (divU (low a) (low b))
  | .rem => remS a b
  | .remw => word (remS (low a) (low b))
  | .remu => remU a b
  | .remuw => word (remU (low a) (low b))
  | .and => a &&& b
  | .or => a ||| b
  | .xor => a ^^^ b
  | .sll => a <<< (b.toNat % 64)
  | .sllw => word (low a <<< (b.toNat % 32))
  | .srl => a >>> (b.toNat % 64)
  | .srlw => word (low a >>> (b.toNat % 32))
  | .sra => a.sshiftRight (b.toNat % 64)
  | .sraw => word ((low a).sshiftRight (b.toNat % 32))
  | .slt => if a.slt b then 1 else 0
  | .sltu => if a.ult b then 1 else 0

/-- The register operation an operation with an immediate does. -/
def IOp.op : IOp → ROp
  | .addi => .add
  | .addiw => .addw
  | .andi => .and
  | .ori => .or
  | .xori => .xor
  | .slli => .sll
  | .slliw => .sllw
  | .srli => .srl
  | .srliw => .srlw
  | .srai => .sra
  | .sraiw => .sraw
  | .slti => .slt
  | .sltiu => .sltu

def iEval (op : IOp) (a : BitVec 64) (v : Int) : BitVec 64 := rEval op.op a (BitVec.ofInt 64 v)

def taken (op : BOp) (a b : BitVec 64) : Bool :=
  match op with
  | .beq => a == b
  | .bne => a != b
  | .blt => a.slt b
  | .bge => !a.slt b
  | .bltu => a.ult b
  | .bgeu => !a.ult b

variable {ρ : Type}

def St.next (s : St ρ) (n : Nat) : St ρ := { s with pc := s.pc + BitVec.ofNat 64 n }

/-- Jumps go to even addresses. -/
def even (a : BitVec 64) : BitVec 64 := a &&& ~~~1

/-- One instruction of `n` bytes. -/
def exec (M : Machine ρ) (i : Insn) (n : Nat) (s : St ρ) : St ρ :=
  match i with
  | .r op d a b => (s.set d (rEval op (s.get a) (s.get b))).next n
  | .i op d a v => (s.set d (iEval op (s.get a) v)).next n
  | .load op d a off => (s.set d (M.load op (s.get a + BitVec.ofInt 64 off) s.rest)).next n
  | .store op v a off => { s with rest := M.store op (s.get v) (s.get a + BitVec.ofInt 64 off) s.rest }.next n
  | .fload b d a off => { s with rest := M.fload b d (s.get a + BitVec.ofInt 64 off) s.rest }.next n
  | .fstore b v a off => { s with rest := M.fstore b v (s.get a + BitVec.ofInt 64 off) s.rest }.next n
  | .lui d v => (s.set d (BitVec.ofInt 64 (v * 4096))).next n
  | .auipc d v => (s.set d (s.pc + BitVec.ofInt 64 (v * 4096))).next n
  | .jal d off => { s.set d (s.pc + BitVec.ofNat 64 n) with pc := s.pc + BitVec.ofInt 64 off }
  | .jalr d a off => { s.set d (s.pc + BitVec.ofNat 64 n) with pc := even (s.get a + BitVec.ofInt 64 off) }
  | .branch op a b off => if taken op (s.get a) (s.get b) then { s with pc := s.pc + BitVec.ofInt 64 off } else s.next n
  | .ecall => (M.ecall s).next n
  | .ebreak => M.ebreak s
  | .fff op d a b => { s with rest := M.fff op d a b s.rest }.next n
  | .ff op d a => { s with rest := M.ff op d a s.rest }.next n
  | .xff op d a b => ({ s with rest := (M.xff op a b s.rest).2 }.set d (M.xff op a b s.rest).1).next n
  | .xf op d a => ({ s with rest := (M.xf op a s.rest).2 }.set d (M.xf op a s.rest).1).next n
  | .fx op d a => { s with rest := M.fx op d (s.get a) s.rest }.next n

def run (M : Machine ρ) (is : List (Insn × Nat)) (s : St ρ) : St ρ := is.foldl (fun s i => exec M i.1 i.2 s) s

/-! ### Requests -/

/-- Assembler instructions with one operand. -/
inductive UOp
  | neg | not | sext (k : Nat) | zext (k : Nat) | seqz | snez | sltz | sgtz
deriving DecidableEq, Repr

/-- What the back end asks the encoder for.  `rm`: the rounding mode, if one is given. -/
inductive Req
  | rrr (op : ROp) (d a b : Nat)
  | rri (op : IOp) (d a : Nat) (v : Int)
  | un (op : UOp) (d a : Nat)
  | mv (d a : Nat)
  | li (d : Nat) (v : Int)
  | load (op : LOp) (d a : Nat) (off : Int)
  | store (op : SOp) (v a : Nat) (off : Int)
  | fload (dbl : Bool) (d a : Nat) (off : Int)
  | fstore (dbl : Bool) (v a : Nat) (off : Int)
  | j (off : Int)
  | jr (a : Nat)
  | jalr (a : Nat)
  | branch (op : BOp) (a b : Nat) (off : Int)
  | call (off : Int)
  | ret
  | ecall
  | farith (op : Arith) (dbl : Bool) (d a b : Nat)
  | fsgnj (k : Sgn) (dbl : Bool) (d a b : Nat)
  | fsqrt (dbl : Bool) (d a : Nat)
  | fmv (dbl : Bool) (d a : Nat)
  | fneg (dbl : Bool) (d a : Nat)
  | fcvtDS (d a : Nat)
  | fcvtSD (d a : Nat)
  | fcmp (k : Cmp) (dbl : Bool) (d a b : Nat)
  | fmvX (dbl : Bool) (d a : Nat)
  | fcvtToInt (k : IntK) (dbl : Bool) (d a : Nat) (rm : Option Nat)
  | fcvtFromInt (k : IntK) (dbl : Bool) (d a : Nat)
deriving DecidableEq, Repr

def uEval (op : UOp) (a : BitVec 64) : BitVec 64 :=
  match op with
  | .neg => -a
  | .not => ~~~a
  | .sext k => (a.setWidth k).signExtend 64
  | .zext k => (a.setWidth k).setWidth 64
  | .seqz => if a = 0 then 1 else 0
  | .snez => if a = 0 then 0 else 1
  | .sltz => if a.toInt < 0 then 1 else 0
  | .sgtz => if 0 < a.toInt then 1 else 0

/-- The rounding mode of the processor. -/
def dyn : Nat := 7

/-- What a request means when it is `n` bytes long. -/
def effect (M : Machine ρ) (n : Nat) (q : Req) (s : St ρ) : St ρ :=
  match q with
  | .rrr op d a b => (s.set d (rEval op (s.get a) (s.get b))).next n
  | .rri op d a v => (s.set d (iEval op (s.get a) v)).next n
  | .un op d a => (s.set d (uEval op (s.get a))).next n
  | .mv d a => (s.set d (s.get a)).next n
  | .li d v => (s.set d (BitVec.ofInt 64 v)).next n
  | .load op d a off => (s.set d (M.load op (s.get a + BitVec.ofInt 64 off) s.rest)).next n
  | .store op v a off => { s with rest := M.store op (s.get v) (s.get a + BitVec.ofInt 64 off) s.rest }.next n
  | .fload b d a off => { s with rest := M.fload b d (s.get a + BitVec.ofInt 64 off) s.rest }.next n
  | .fstore b v a off => { s with rest := M.fstore b v (s.get a + BitVec.ofInt 64 off) s.rest }.next n
  | .j off => { s with pc := s.pc + BitVec.ofInt 64 off }
  | .jr a => { s with pc := even (s.get a) }
  | .jalr a => { s.set 1 (s.pc + BitVec.ofNat 64 n) with pc := even (s.get a) }
  | .branch op a b off => if taken op (s.get a) (s.get b) then { s with pc := s.pc + BitVec.ofInt 64 off } else s.next n
  | .call off => { s.set 1 (s.pc + BitVec.ofNat 64 n) with pc := even (s.pc + BitVec.ofInt 64 off) }
  | .ret => { s with pc := even (s.get 1) }
  | .ecall => (M.ecall s).next n
  | .farith op dbl d a b => { s with rest := M.fff (.arith op dbl dyn) d a b s.rest }.next n
  | .fsgnj k dbl d a b => { s with rest := M.fff (.sgnj k dbl) d a b s.rest }.next n
  | .fsqrt dbl d a => { s with rest := M.ff (.sqrt dbl dyn) d a s.rest }.next n
  -- the manual defines both by sign injection
  | .fmv dbl d a => { s with rest := M.fff (.sgnj .j dbl) d a a s.rest }.next n
  | .fneg dbl d a => { s with rest := M.fff (.sgnj .jn dbl) d a a s.rest }.next n
  | .fcvtDS d a => { s with rest := M.ff .widen d a s.rest }.next n
  | .fcvtSD d a => { s with rest := M.ff (.narrow dyn) d a s.rest }.next n
  | .fcmp k dbl d a b => ({ s with rest := (M.xff (.cmp k dbl) a b s.rest).2 }.set d (M.xff (.cmp k dbl) a b s.rest).1).next n
  | .fmvX dbl d a => ({ s with rest := (M.xf (.bits dbl) a s.rest).2 }.set d (M.xf (.bits dbl) a s.rest).1).next n
  | .fcvtToInt k dbl d a rm =>
    ({ s with rest := (M.xf (.toInt k dbl (rm.getD dyn)) a s.rest).2 }.set d (M.xf (.toInt k dbl (rm.getD dyn)) a s.rest).1).next n
  | .fcvtFromInt k dbl d a =>
    { s with rest := M.fx (.fromInt k dbl (if dbl = true ∧ (k = IntK.w ∨ k = IntK.wu) then none else some dyn)) d (s.get a) s.rest }.next n

/-- The registers of a request. -/
def Req.regs : Req → List Nat
  | .rrr _ d a b => [d, a, b]
  | .rri _ d a _ => [d, a]
  | .un _ d a => [d, a]
  | .mv d a => [d, a]
  | .li d _ => [d]
  | .load _ d a _ => [d, a]
  | .store _ v a _ => [v, a]
  | .fload _ d a _ => [d, a]
  | .fstore _ v a _ => [v, a]
  | .j _ => []
  | .jr a => [a]
  | .jalr a => [a]
  | .branch _ a b _ => [a, b]
  | .call _ => []
  | .ret => []
  | .ecall => []
  | .farith _ _ d a b => [d, a, b]
  | .fsgnj _ _ d a b => [d, a, b]
  | .fsqrt _ d a => [d, a]
  | .fmv _ d a => [d, a]
  | .fneg _ d a => [d, a]
  | .fcvtDS d a => [d, a]
  | .fcvtSD d a => [d, a]
  | .fcmp _ _ d a b => [d, a, b]
  | .fmvX _ d a => [d, a]
  | .fcvtToInt _ _ d a _ => [d, a]
  | .fcvtFromInt _ _ d a => [d, a]

/-- Immediates of 12 bits. -/
def im12 (v : Int) : Prop := -2048 ≤ v ∧ v < 2048

instance (v : Int) : Decidable (im12 v) := by unfold im12; infer_instance

/-- The numbers of a request are ones that the instruction set has room for; any 64-bit number can be loaded. -/
def Req.numbers : Req → Prop
  | .rri op _ _ v =>
    match op with
    | .slli | .srli | .srai => 0 ≤ v ∧ v < 64
    | .slliw | .srliw | .sraiw => 0 ≤ v ∧ v < 32
    | _ => im12 v
  | .un (.sext k) _ _ | .un (.zext k) _ _ => k = 8 ∨ k = 16 ∨ k = 32
  | .li _ v => -2 ^ 63 ≤ v ∧ v < 2 ^ 63
  | .load _ _ _ off | .store _ _ _ off | .fload _ _ _ off | .fstore _ _ _ off => im12 off
  | .j off => -2 ^ 20 ≤ off ∧ off < 2 ^ 20 ∧ off % 2 = 0
  | .branch _ _ _ off => -2 ^ 12 ≤ off ∧ off < 2 ^ 12 ∧ off % 2 = 0
  | .call off => -2 ^ 31 ≤ off ∧ off < 2 ^ 31 - 2048
  | .fcvtToInt _ _ _ _ rm => ∀ m, rm = some m → m ≤ 4
  | _ => True

/-- A request the back end may make: its registers exist and its numbers have room. -/
structure Sensible (q : Req) : Prop where
  regs : ∀ r ∈ q.regs, r < 32
  numbers : q.numbers

end Nature.Riscv
