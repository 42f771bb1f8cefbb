import Verif.Arith.Lir
/-
arm64: src/lower/arm64.c and src/native/arm64.c for integer operations, and the instructions used.
-/
namespace Nature.Arith.Arm64

/-! ### The machine -/

/-- `x16` (`w16`) and the zero register. -/
def x16 : R := .s 0
def zr : R := .s 1

inductive Op
  | add | sub | mul | sdiv | udiv | and | orr | eor | lsl | lsr | asr
deriving DecidableEq, Repr

inductive Cond
  | eq | ne | gt | ge | lt | le | lo | ls | hi | hs
deriving DecidableEq, Repr

/-- Instructions on `w` registers (`N = 32`) or `x` registers (`N = 64`). -/
inductive I
  | movz (N : Nat) (d : R) (v : BitVec 16)
  | movn (N : Nat) (d : R) (v : BitVec 16)
  | movk (N : Nat) (d : R) (v : BitVec 16) (sh : Nat)
  | mov (N : Nat) (d a : R)
  | r (op : Op) (N : Nat) (d a b : R)
  | i (op : Op) (N : Nat) (d a : R) (v : BitVec 64)
  | msub (N : Nat) (d n m a : R)
  | mvn (N : Nat) (d a : R)
  | cmp (N : Nat) (a b : R)
  | cmpi (N : Nat) (a : R) (v : BitVec 64)
  | cmn (N : Nat) (a b : R)
  | cmni (N : Nat) (a : R) (v : BitVec 64)
  | cset (d : R) (c : Cond)
  /-- `sxtb`, `sxth`, `sxtw`: `m` is 8, 16 or 32. -/
  | sxt (m N : Nat) (d a : R)
  /-- `uxtb`, `uxth`, and `uxtw`, which is a move of `w` registers (opcode.c:198-205). -/
  | uxt (m : Nat) (d a : R)

/-- Arm Architecture Reference Manual, A64.  Division by zero gives zero. -/
def compute {N : Nat} (op : Op) (a b : BitVec N) : BitVec N :=
  match op with
  | .add => a + b
  | .sub => a - b
  | .mul => a * b
  | .sdiv => if b = 0 then 0 else BitVec.ofInt N (a.toInt.tdiv b.toInt)
  | .udiv => if b = 0 then 0 else BitVec.ofNat N (a.toNat / b.toNat)
  | .and => a &&& b
  | .orr => a ||| b
  | .eor => a ^^^ b
  | .lsl => a <<< (b.toNat % N)
  | .lsr => a >>> (b.toNat % N)
  | .asr => a.sshiftRight (b.toNat % N)

/-- opcode.c:147-179 `asm_2ri`: outside -4095 … 4095 the word is 0, an undefined instruction.  A negative one is the other operation
with its absolute value.  Shifts have their 5 or 6 bits. -/
def encodes (op : Op) (N : Nat) (v : BitVec 64) : Bool :=
  match op with
  | .add | .sub => decide (-4095 ≤ v.toInt ∧ v.toInt ≤ 4095)
  | .lsl | .lsr | .asr => decide (v.toNat < N)
  | _ => false

/-- opcode.c:211-232 `asm_ri`. -/
def encodesCmp (v : BitVec 64) : Bool := decide (0 ≤ v.toInt ∧ v.toInt ≤ 4095)

def Cond.holds (c : Cond) (f : Flags) : Bool :=
  match c with
  | .eq => f.z
  | .ne => !f.z
  | .gt => !f.z && (f.n == f.v)
  | .ge => f.n == f.v
  | .lt => f.n != f.v
  | .le => f.z || (f.n != f.v)
  | .lo => !f.c
  | .ls => !f.c || f.z
  | .hi => f.c && !f.z
  | .hs => f.c

/-- The flags of `a - b` and of `a + b`. -/
def subFlags {N : Nat} (a b : BitVec N) : Flags := ⟨(a - b).msb, a - b == 0, decide (b.toNat ≤ a.toNat), BitVec.ssubOverflow a b⟩
def addFlags {N : Nat} (a b : BitVec N) : Flags := ⟨(a + b).msb, a + b == 0, decide (2 ^ N ≤ a.toNat + b.toNat), BitVec.saddOverflow a b⟩

def rd (s : St) (N : Nat) (r : R) : BitVec N := if r = zr then 0 else (s.regs r).setWidth N

/-- A write to a `w` register clears the upper half. -/
def setReg (s : St) (r : R) {N : Nat} (v : BitVec N) : St := { s with regs := upd s.regs r (v.setWidth 64) }

def setFlags (s : St) (f : Flags) : St := { s with flags := f }

def step : I → St → Option St
  | .movz N d v, s => some (setReg s d (v.setWidth N))
  | .movn N d v, s => some (setReg s d (~~~(v.setWidth N)))
  | .movk N d v sh, s => some (setReg s d ((rd s N d &&& ~~~(BitVec.ofNat N 0xFFFF <<< sh)) ||| (v.setWidth N <<< sh)))
  | .mov N d a, s => some (setReg s d (rd s N a))
  | .r op N d a b, s => some (setReg s d (compute op (rd s N a) (rd s N b)))
  | .i op N d a v, s => if encodes op N v then some (setReg s d (compute op (rd s N a) (v.setWidth N))) else none
  | .msub N d n m a, s => some (setReg s d (rd s N a - rd s N n * rd s N m))
  | .mvn N d a, s => some (setReg s d (~~~(rd s N a)))
  | .cmp N a b, s => some (setFlags s (subFlags (rd s N a) (rd s N b)))
  | .cmpi N a v, s => if encodesCmp v then some (setFlags s (subFlags (rd s N a) (v.setWidth N))) else none
  | .cmn N a b, s => some (setFlags s (addFlags (rd s N a) (rd s N b)))
  | .cmni N a v, s => if encodesCmp v then some (setFlags s (addFlags (rd s N a) (v.setWidth N))) else none
  | .cset d c, s => some (setReg s d (if c.holds s.flags then (1 : BitVec 32) else 0))
  | .sxt m N d a, s => some (setReg s d ((rd s m a).signExtend N))
  | .uxt m d a, s => some (setReg s d ((rd s m a).setWidth 32))

def run : List I → St → Option St
  | [], s => some s
  | i :: is, s => (step i s).bind (run is)

/-! ### Lowering and instruction selection -/

/-- register/arch/arm64.c `reg_select`: `w` registers for types of up to four bytes. -/
def native (w : Width) : Nat := if w = .w64 then 64 else 32

/-- native/arm64.c:24-51 `arm64_mov_imm`, with opcode.c:37-45 for the first instruction of the small case. -/
def movImm (N : Nat) (d : R) (v : BitVec 64) : List I :=
  if -0xFFFF ≤ v.toInt ∧ v.toInt ≤ 0xFFFF then
    [if 0 ≤ v.toInt then .movz N d (v.setWidth 16) else .movn N d ((~~~v).setWidth 16)]
  else
    let part (sh : Nat) : List I :=
      let c : BitVec 16 := (v >>> sh).setWidth 16
      if c = 0 then [] else [.movk 64 d c sh]
    .movz 64 d (v.setWidth 16) :: (part 16 ++ (part 32 ++ part 48))

/-- lower/arm64.c:6-16 `arm64_convert_use_var`: a literal goes to a new temporary, native/arm64.c:531-540. -/
def inReg (N : Nat) (l : R) (x : Opd) : List I × R :=
  match x with
  | .reg r => ([], r)
  | .imm v => (movImm N l v, l)

/-- native/arm64.c:267-280: a literal second operand above 4095 goes to `x16` or `w16`. -/
def second (N : Nat) (x : Opd) : List I × Opd :=
  match x with
  | .imm v => if 4095 < v.toInt then (movImm N x16 v, .reg x16) else ([], x)
  | x => ([], x)

/-- lower/arm64.c:182-218 `arm64_lower_ternary`: operations with two registers. -/
def both (op : Op) (N : Nat) (a b : Opd) (out : R) : List I :=
  (inReg N (.l 0) a).1 ++ (inReg N (.l 1) b).1 ++ [.r op N out (inReg N (.l 0) a).2 (inReg N (.l 1) b).2]

/-- native/arm64.c:902-935 `arm64_native_add`, `arm64_native_sub` and 865-888 `arm64_native_shift`. -/
def withImm (op : Op) (N : Nat) (a b : Opd) (out : R) : List I :=
  (inReg N (.l 0) a).1 ++ (second N b).1 ++
    match (second N b).2 with
    | .imm v => [.i op N out (inReg N (.l 0) a).2 v]
    | .reg r => [.r op N out (inReg N (.l 0) a).2 r]

/-- native/arm64.c:759-789 `arm64_native_rem`. -/
def rem (op : Op) (N : Nat) (a b : Opd) (out : R) : List I :=
  let x := inReg N (.l 0) a
  let y := inReg N (.l 1) b
  x.1 ++ y.1 ++ [.r op N x16 x.2 y.2, .msub N out x16 y.2 x.2]

/-- native/arm64.c:76-107 `arm64_gen_cmp`: a negative literal is negated (in 64 bits) and `cmn` compares with it. -/
def genCmp (N : Nat) (f : R) (b : Opd) : List I :=
  match b with
  | .reg r => [.cmp N f r]
  | .imm v =>
    let neg : Bool := decide (v.toInt < 0)
    let m := if neg then -v else v
    if 4095 < m.toInt then movImm N x16 m ++ [if neg then .cmn N f x16 else .cmp N f x16]
    else [if neg then .cmni N f m else .cmpi N f m]

/-- native/arm64.c:970-1004. -/
def condOf : Code → Cond
  | .sgt => .gt
  | .sge => .ge
  | .slt => .lt
  | .uslt => .lo
  | .sle => .le
  | .usle => .ls
  | .usgt => .hi
  | .usge => .hs
  | .sne => .ne
  | _ => .eq

/-- lower/arm64.c:155-180 `arm64_lower_cmp`, native/arm64.c:956-1012 `arm64_native_scc`. -/
def scc (c : Code) (N : Nat) (a b : Opd) (out : R) : List I :=
  (inReg N (.l 0) a).1 ++ genCmp N (inReg N (.l 0) a).2 b ++ [.cset out (condOf c)]

/-- native/arm64.c:341-387 `arm64_native_sext` and `arm64_native_uext`: by the size of the result. -/
def sext (k : Kind) (d a : R) : I :=
  match k.width with
  | .w64 => .sxt 32 64 d a
  | .w32 => .sxt 16 32 d a
  | .w16 => .sxt 8 32 d a
  | .w8 => .mov 32 d a

def uext (k : Kind) (d a : R) : I :=
  match k.width with
  | .w64 => .uxt 32 d a
  | .w32 => .uxt 16 d a
  | .w16 => .uxt 8 d a
  | .w8 => .mov 32 d a

/-- native/arm64.c:305-338 `arm64_native_trunc`. -/
def trunc (k from_ : Kind) (d a : R) : List I :=
  match k.width with
  | .w32 => if from_.width = .w64 then [.mov 32 d a] else []
  | .w16 => [.movz 32 x16 0xFFFF, .r .and 32 d a x16]
  | .w8 => [.movz 32 x16 0xFF, .r .and 32 d a x16]
  | .w64 => []

/-- lower/arm64.c:316-417 `arm64_lower_block` and the table native/arm64.c:1290-1352, for one operation on integers. -/
def select (o : Lir) : List I :=
  let N := native o.kind.width
  let first := inReg (native o.from_.width) (.l 0) o.first
  match o.code with
  | .add => withImm .add N o.first o.second o.out
  | .sub => withImm .sub N o.first o.second o.out
  | .mul => both .mul N o.first o.second o.out
  | .udiv => both .udiv N o.first o.second o.out
  | .sdiv => both .sdiv N o.first o.second o.out
  | .urem => rem .udiv N o.first o.second o.out
  | .srem => rem .sdiv N o.first o.second o.out
  | .and => both .and N o.first o.second o.out
  | .or => both .orr N o.first o.second o.out
  | .xor => both .eor N o.first o.second o.out
  | .ushl => withImm .lsl N o.first o.second o.out
  | .ushr => withImm .lsr N o.first o.second o.out
  | .sshr => withImm .asr N o.first o.second o.out
  -- native/arm64.c:890-900 and 791-813
  | .not => first.1 ++ [.mvn N o.out first.2]
  | .neg => first.1 ++ [.r .sub N o.out zr first.2]
  | .sext => first.1 ++ [sext o.kind o.out first.2]
  | .uext => first.1 ++ [uext o.kind o.out first.2]
  | .trunc => first.1 ++ trunc o.kind o.from_ o.out first.2
  -- native/arm64.c:484-559
  | .move =>
    match o.first with
    | .reg r => [.mov N o.out r]
    | .imm v => movImm N o.out v
  | c => scc c (native o.from_.width) o.first o.second o.out

def code (ls : List Lir) : List I := ls.flatMap select

end Nature.Arith.Arm64
