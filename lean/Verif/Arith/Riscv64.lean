import Verif.Arith.Lir
/-
riscv64: src/lower/riscv64.c and src/native/riscv64.c for integer operations, and the instructions used.
-/
namespace Nature.Arith.Riscv64

/-! ### The machine -/

/-- `x0` and `x31`. -/
def zero : R := .s 0
def t6 : R := .s 1

inductive Op
  | add | sub | mul | div | divu | rem | remu | and | or | xor | sll | srl | sra | slt | sltu
deriving DecidableEq, Repr

/-- Register forms, forms with an immediate, and pseudo instructions: `li` loads any 64-bit number, `sext` and `zext` extend the low
bits of the given number. -/
inductive I
  | r (op : Op) (d a b : R)
  | i (op : Op) (d a : R) (v : BitVec 64)
  | li (d : R) (v : BitVec 64)
  | mv (d a : R)
  | sext (n : Nat) (d a : R)
  | zext (n : Nat) (d a : R)

/-- RISC-V ISA manual, RV64I and M.  Division by zero does not trap. -/
def compute (op : Op) (a b : BitVec 64) : BitVec 64 :=
  match op with
  | .add => a + b
  | .sub => a - b
  | .mul => a * b
  | .div => if b = 0 then -1 else BitVec.ofInt 64 (a.toInt.tdiv b.toInt)
  | .divu => if b = 0 then -1 else BitVec.ofNat 64 (a.toNat / b.toNat)
  | .rem => if b = 0 then a else BitVec.ofInt 64 (a.toInt.tmod b.toInt)
  | .remu => if b = 0 then a else BitVec.ofNat 64 (a.toNat % b.toNat)
  | .and => a &&& b
  | .or => a ||| b
  | .xor => a ^^^ b
  | .sll => a <<< (b.toNat % 64)
  | .srl => a >>> (b.toNat % 64)
  | .sra => a.sshiftRight (b.toNat % 64)
  | .slt => if a.slt b then 1 else 0
  | .sltu => if a.ult b then 1 else 0

/-- The immediates an instruction can have: 12 bits with a sign, 6 bits for shifts.  The encoder stops at others. -/
def encodes (op : Op) (v : BitVec 64) : Bool :=
  match op with
  | .add | .and | .or | .xor | .slt | .sltu => decide (-2048 ≤ v.toInt ∧ v.toInt ≤ 2047)
  | .sll | .srl | .sra => decide (v.toNat < 64)
  | _ => false

def rd (s : St) (r : R) : BitVec 64 := if r = zero then 0 else s.regs r

def setReg (s : St) (r : R) (v : BitVec 64) : St := { s with regs := upd s.regs r v }

def step : I → St → Option St
  | .r op d a b, s => some (setReg s d (compute op (rd s a) (rd s b)))
  | .i op d a v, s => if encodes op v then some (setReg s d (compute op (rd s a) v)) else none
  | .li d v, s => some (setReg s d v)
  | .mv d a, s => some (setReg s d (rd s a))
  | .sext n d a, s => some (setReg s d (((rd s a).setWidth n).signExtend 64))
  | .zext n d a, s => some (setReg s d (((rd s a).setWidth n).setWidth 64))

def run : List I → St → Option St
  | [], s => some s
  | i :: is, s => (step i s).bind (run is)

/-! ### Lowering and instruction selection -/

/-- lower/riscv64.c:6-16 `riscv64_convert_use_var`: a literal goes to a new temporary, riscv64.c:244-251. -/
def inReg (l : R) (x : Opd) : List I × R :=
  match x with
  | .reg r => ([], r)
  | .imm v => ([.li l v], l)

/-- native/riscv64.c:133-141: a literal second operand outside the range of immediates goes to `t6`. -/
def second (x : Opd) : List I × Opd :=
  match x with
  | .imm v => if v.toInt < -2048 ∨ 2047 < v.toInt then ([.li t6 v], .reg t6) else ([], x)
  | x => ([], x)

/-- lower/riscv64.c:146-182 and native/riscv64.c: operations with two registers.  For these the second operand is moved to a
temporary (lower/riscv64.c:157-166); the move of a variable is left out. -/
def both (op : Op) (a b : Opd) (out : R) : List I :=
  (inReg (.l 0) a).1 ++ (inReg (.l 1) b).1 ++ [.r op out (inReg (.l 0) a).2 (inReg (.l 1) b).2]

/-- native/riscv64.c:297-322 `riscv64_native_add`. -/
def add (a b : Opd) (out : R) : List I :=
  (inReg (.l 0) a).1 ++ (second b).1 ++
    match (second b).2 with
    | .imm v => [.i .add out (inReg (.l 0) a).2 v]
    | .reg r => [.r .add out (inReg (.l 0) a).2 r]

/-- native/riscv64.c:327-359 `riscv64_native_sub`: the immediate is negated. -/
def sub (a b : Opd) (out : R) : List I :=
  (inReg (.l 0) a).1 ++ (second b).1 ++
    match (second b).2 with
    | .imm v => [.i .add out (inReg (.l 0) a).2 (-v)]
    | .reg r => [.r .sub out (inReg (.l 0) a).2 r]

/-- native/riscv64.c:591-629 `riscv64_native_shift`. -/
def shift (op : Op) (a b : Opd) (out : R) : List I :=
  (inReg (.l 0) a).1 ++ (second b).1 ++
    match (second b).2 with
    | .imm v => [.i op out (inReg (.l 0) a).2 v]
    | .reg r => [.r op out (inReg (.l 0) a).2 r]

/-- native/riscv64.c:645-653: for comparisons a literal outside -2048 … 2046 goes to `t6`. -/
def cmpSecond (x : Opd) : List I × Opd :=
  match x with
  | .imm v => if v.toInt < -2048 ∨ 2046 < v.toInt then ([.li t6 v], .reg t6) else ([], x)
  | x => ([], x)

/-- native/riscv64.c:655-743 `riscv64_native_scc`, by opcode: `f` is the register of the first operand. -/
def sccTail (c : Code) (f : R) (b : Opd) (out : R) : List I :=
  let not := I.i .xor out out 1
  match c, b with
  | .sgt, .imm v => [.i .slt out f (v + 1), not]
  | .sgt, .reg r => [.r .slt out r f]
  | .sge, .imm v => [.i .slt out f v, not]
  | .sge, .reg r => [.r .slt out f r, not]
  | .slt, .imm v => [.i .slt out f v]
  | .slt, .reg r => [.r .slt out f r]
  | .uslt, .imm v => [.i .sltu out f v]
  | .uslt, .reg r => [.r .sltu out f r]
  | .sle, .imm v => [.i .slt out f (v + 1)]
  | .sle, .reg r => [.r .slt out r f, not]
  | .usle, .imm v => [.i .sltu out f (v + 1)]
  | .usle, .reg r => [.r .sltu out r f, not]
  | .usgt, .imm v => [.i .sltu out f (v + 1), not]
  | .usgt, .reg r => [.r .sltu out r f]
  | .usge, .imm v => [.i .sltu out f v, not]
  | .usge, .reg r => [.r .sltu out f r, not]
  | .see, .imm v => [.i .xor out f v, .i .sltu out out 1]
  | .see, .reg r => [.r .xor out f r, .i .sltu out out 1]
  | .sne, .imm v => [.i .xor out f v, .r .sltu out zero out]
  | .sne, .reg r => [.r .xor out f r, .r .sltu out zero out]
  | _, _ => []

/-- lower/riscv64.c:115-141 `riscv64_lower_cmp`, native/riscv64.c:634-743. -/
def scc (c : Code) (a b : Opd) (out : R) : List I :=
  (inReg (.l 0) a).1 ++ (cmpSecond b).1 ++ sccTail c (inReg (.l 0) a).2 (cmpSecond b).2 out

/-- native/riscv64.c:1267-1315 `riscv64_native_sext` and `riscv64_native_uext`: by the size of the result. -/
def sext (k : Kind) (d a : R) : I :=
  match k.width with
  | .w8 => .sext 8 d a
  | .w16 => .mv d a
  | .w32 => .sext 16 d a
  | .w64 => .sext 32 d a

def uext (k : Kind) (d a : R) : I :=
  match k.width with
  | .w8 => .zext 8 d a
  | .w16 => .mv d a
  | .w32 => .zext 16 d a
  | .w64 => .zext 32 d a

/-- native/riscv64.c:1320-1354 `riscv64_native_trunc`: the mask is loaded into `x31`. -/
def trunc (k : Kind) (d a : R) : List I :=
  .mv d a ::
    match k.width with
    | .w32 => [.mv d a]
    | .w16 => [.li t6 0xFFFF, .r .and d a t6]
    | .w8 => [.li t6 0xFF, .r .and d a t6]
    | .w64 => []

/-- lower/riscv64.c:220-320 `riscv64_lower_block` and the table native/riscv64.c:1543, for one operation on integers. -/
def select (o : Lir) : List I :=
  let first := inReg (.l 0) o.first
  match o.code with
  | .add => add o.first o.second o.out
  | .sub => sub o.first o.second o.out
  | .mul => both .mul o.first o.second o.out
  | .udiv => both .divu o.first o.second o.out
  | .sdiv => both .div o.first o.second o.out
  | .urem => both .remu o.first o.second o.out
  | .srem => both .rem o.first o.second o.out
  | .and => both .and o.first o.second o.out
  | .or => both .or o.first o.second o.out
  | .xor => both .xor o.first o.second o.out
  | .ushl => shift .sll o.first o.second o.out
  | .ushr => shift .srl o.first o.second o.out
  | .sshr => shift .sra o.first o.second o.out
  -- native/riscv64.c:552-586
  | .not => first.1 ++ [.i .xor o.out first.2 (-1)]
  | .neg => first.1 ++ [.r .sub o.out zero first.2]
  | .sext => first.1 ++ [sext o.kind o.out first.2]
  | .uext => first.1 ++ [uext o.kind o.out first.2]
  | .trunc => first.1 ++ trunc o.kind o.out first.2
  -- native/riscv64.c:198-292
  | .move =>
    match o.first with
    | .reg r => [.mv o.out r]
    | .imm v => [.li o.out v]
  | c => scc c o.first o.second o.out

def code (ls : List Lir) : List I := ls.flatMap select

end Nature.Arith.Riscv64
