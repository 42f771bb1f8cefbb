import Verif.Arith.Lir
/-
amd64: src/lower/amd64.c and src/native/amd64.c for integer operations, and the instructions used.
-/
namespace Nature.Arith.Amd64

/-! ### The machine -/

def rax : R := .s 0
def rcx : R := .s 1
def rdx : R := .s 2

inductive Alu
  | add | sub | and | or | xor
deriving DecidableEq, Repr

inductive Sh
  | sal | shr | sar
deriving DecidableEq, Repr

inductive CC
  | l | b | le | be | g | a | ge | ae | e | ne
deriving DecidableEq, Repr

inductive I
  | mov (w : Width) (d : R) (s : Opd)
  | movAh (d : R)
  | alu (op : Alu) (w : Width) (d : R) (s : Opd)
  | imul1 (s : R)
  | imul2 (w : Width) (d s : R)
  | imul3 (w : Width) (d s : R) (v : BitVec 64)
  | neg (w : Width) (d : R)
  | not (w : Width) (d : R)
  | sh (op : Sh) (w : Width) (d : R)
  | div (w : Width) (s : R)
  | idiv (w : Width) (s : R)
  | movsx (wd : Width) (d : R) (ws : Width) (s : R)
  | movzx (wd : Width) (d : R) (ws : Width) (s : R)
  | cmp (w : Width) (d : R) (s : Opd)
  | set (cc : CC) (d : R)

/-- Intel SDM vol. 1, 3.4.1.1: what a write of the low bits leaves of the register. -/
def put (w : Width) (old : BitVec 64) (v : BitVec w.bits) : BitVec 64 :=
  match w with
  | .w64 => v
  | .w32 => v.setWidth 64
  | .w16 => ((old >>> 16) <<< 16) ||| v.setWidth 64
  | .w8 => ((old >>> 8) <<< 8) ||| v.setWidth 64

def aluOp {n : Nat} : Alu → BitVec n → BitVec n → BitVec n
  | .add => (· + ·)
  | .sub => (· - ·)
  | .and => (· &&& ·)
  | .or => (· ||| ·)
  | .xor => (· ^^^ ·)

/-- Counts are taken modulo 64 for 64-bit operands and modulo 32 for the others. -/
def shCount (w : Width) (cl : BitVec 64) : Nat := (cl.setWidth 8).toNat % (match w with | .w64 => 64 | _ => 32)

def shOp {n : Nat} : Sh → BitVec n → Nat → BitVec n
  | .sal => (· <<< ·)
  | .shr => (· >>> ·)
  | .sar => BitVec.sshiftRight

/-- The flags of `cmp a, b`. -/
def cmpFlags {n : Nat} (a b : BitVec n) : Flags where
  n := (a - b).msb
  z := a - b == 0
  c := a.ult b
  v := BitVec.ssubOverflow a b

def holds (f : Flags) : CC → Bool
  | .l => f.n != f.v
  | .b => f.c
  | .le => f.z || (f.n != f.v)
  | .be => f.c || f.z
  | .g => !f.z && (f.n == f.v)
  | .a => !f.c && !f.z
  | .ge => f.n == f.v
  | .ae => !f.c
  | .e => f.z
  | .ne => !f.z

/-- `div` and `idiv`: the dividend is twice as wide; a divisor of zero and a quotient that does not fit raise #DE (`none`).
Result: quotient and remainder. -/
def divU (n : Nat) (hi lo d : BitVec n) : Option (BitVec n × BitVec n) :=
  let a := hi.toNat * 2 ^ n + lo.toNat
  if d.toNat = 0 then none
  else if 2 ^ n ≤ a / d.toNat then none
  else some (BitVec.ofNat n (a / d.toNat), BitVec.ofNat n (a % d.toNat))

def divS (n : Nat) (hi lo d : BitVec n) : Option (BitVec n × BitVec n) :=
  let a : Int := hi.toInt * 2 ^ n + lo.toNat
  if d.toInt = 0 then none
  else if a.tdiv d.toInt < -2 ^ (n - 1) ∨ 2 ^ (n - 1) ≤ a.tdiv d.toInt then none
  else some (BitVec.ofInt n (a.tdiv d.toInt), BitVec.ofInt n (a.tmod d.toInt))

def ahOf (x : BitVec 64) : BitVec 8 := (x >>> 8).setWidth 8

def setReg (s : St) (r : R) (v : BitVec 64) : St := { s with regs := upd s.regs r v }

def low (w : Width) (x : BitVec 64) : BitVec w.bits := x.setWidth w.bits

def runDiv (f : (n : Nat) → BitVec n → BitVec n → BitVec n → Option (BitVec n × BitVec n)) (w : Width) (r : R) (s : St) : Option St :=
  match w with
  | .w8 =>
    match f 8 (ahOf (s.regs rax)) (low .w8 (s.regs rax)) (low .w8 (s.regs r)) with
    | none => none
    | some (q, m) => some (setReg s rax (put .w16 (s.regs rax) (m ++ q)))
  | w =>
    match f w.bits (low w (s.regs rdx)) (low w (s.regs rax)) (low w (s.regs r)) with
    | none => none
    | some (q, m) =>
      some { s with regs := upd (upd s.regs rax (put w (s.regs rax) q)) rdx (put w (s.regs rdx) m) }

def step : I → St → Option St
  | .mov w d x, s => some (setReg s d (put w (s.regs d) (low w (x.get s.regs))))
  | .movAh d, s => some (setReg s d (put .w8 (s.regs d) (ahOf (s.regs rax))))
  | .alu op w d x, s => some (setReg s d (put w (s.regs d) (aluOp op (low w (s.regs d)) (low w (x.get s.regs)))))
  | .imul1 r, s => some (setReg s rax (put .w16 (s.regs rax)
      (((low .w8 (s.regs rax)).signExtend 16) * ((low .w8 (s.regs r)).signExtend 16))))
  | .imul2 w d r, s => some (setReg s d (put w (s.regs d) (low w (s.regs d) * low w (s.regs r))))
  | .imul3 w d r v, s => some (setReg s d (put w (s.regs d) (low w (s.regs r) * low w v)))
  | .neg w d, s => some (setReg s d (put w (s.regs d) (-(low w (s.regs d)))))
  | .not w d, s => some (setReg s d (put w (s.regs d) (~~~(low w (s.regs d)))))
  | .sh op w d, s => some (setReg s d (put w (s.regs d) (shOp op (low w (s.regs d)) (shCount w (s.regs rcx)))))
  | .div w r, s => runDiv divU w r s
  | .idiv w r, s => runDiv divS w r s
  -- only from narrower registers: no such instruction otherwise (opcode.c:491-522), and the assembler stops
  | .movsx wd d ws r, s => if wd.bits ≤ ws.bits then none else some (setReg s d (put wd (s.regs d) ((low ws (s.regs r)).signExtend wd.bits)))
  | .movzx wd d ws r, s => if wd.bits ≤ ws.bits then none else some (setReg s d (put wd (s.regs d) ((low ws (s.regs r)).setWidth wd.bits)))
  | .cmp w d x, s => some { s with flags := cmpFlags (low w (s.regs d)) (low w (x.get s.regs)) }
  | .set cc d, s => some (setReg s d (put .w8 (s.regs d) (if holds s.flags cc then 1 else 0)))

def run : List I → St → Option St
  | [], s => some s
  | i :: is, s => (step i s).bind (run is)

/-! ### Lowering and instruction selection -/

/-- lower/amd64.c:76-88: a 64-bit immediate that is no sign-extended 32-bit one goes through a register `.l 1`. -/
def imm (k : Kind) (x : Opd) : List I × Opd :=
  match x with
  | .imm v =>
    if k.width = .w64 ∧ ((2 : Int) ^ 31 - 1 < v.toInt ∨ v.toInt < -2 ^ 31) then ([.mov .w64 (.l 1) (.imm v)], .reg (.l 1))
    else ([], x)
  | x => ([], x)

/-- lower/amd64.c:7-12 `amd64_convert_first_to_temp`, for an operand that is no variable. -/
def inReg (k : Kind) (l : R) (x : Opd) : List I × R :=
  match x with
  | .reg r => ([], r)
  | .imm v => ([.mov k.width l (.imm v)], l)

/-- lower/amd64.c:121-134 `amd64_lower_ternary` and native/amd64.c:493-556, 619-683.  `inc` and `dec` are written as `add` and
`sub` of one. -/
def ternary (op : Alu) (k : Kind) (a b : Opd) (out : R) : List I :=
  (imm k b).1 ++ [.mov k.width (.l 0) a, .alu op k.width (.l 0) (imm k b).2, .mov k.width out (.reg (.l 0))]

/-- lower/amd64.c:136-154 `amd64_lower_shift`, native/amd64.c:559-588. -/
def shift (op : Sh) (k : Kind) (a b : Opd) (out : R) : List I :=
  [.mov k.width rcx b, .mov k.width (.l 0) a, .sh op k.width (.l 0), .mov k.width out (.reg (.l 0))]

/-- lower/amd64.c:156-217 `amd64_lower_mul`, native/amd64.c:426-463.  A literal first operand is exchanged with the second. -/
def mul (k : Kind) (a b : Opd) (out : R) : List I :=
  if k.width = .w8 then
    (inReg k (.l 2) b).1 ++ [.mov .w8 rax a, .imul1 (inReg k (.l 2) b).2, .mov .w8 out (.reg rax)]
  else
    match (imm k a).2, (imm k b).2 with
    | .imm v, .reg r => (imm k b).1 ++ [.imul3 k.width out r v]
    | .reg r, .imm v => (imm k a).1 ++ [.imul3 k.width out r v]
    | .imm u, .imm v => [.mov k.width (.l 2) (.imm v), .imul3 k.width out (.l 2) u]
    | .reg r, .reg q =>
      -- each of two large literals has its own temporary
      (imm k a).1 ++ [.mov k.width (.l 0) (.reg r)] ++ (imm k b).1 ++ [.imul2 k.width (.l 0) q, .mov k.width out (.reg (.l 0))]

/-- lower/amd64.c:219-303 `amd64_lower_factor`, native/amd64.c:366-403: `CLR` is `xor r, r`; `signed` and `rem` from the opcode. -/
def factor (signed rem : Bool) (k : Kind) (a b : Opd) (out : R) : List I :=
  let d := (if signed then I.idiv else I.div) k.width (inReg k (.l 2) b).2
  (inReg k (.l 2) b).1 ++
    (if k.width = .w8 then
      [.alu .xor .w16 rax (.reg rax), .mov .w8 rax a, d, if rem then .movAh out else .mov .w8 out (.reg rax)]
    else
      [.alu .xor k.width rdx (.reg rdx), .mov k.width rax a, d, .mov k.width out (.reg (if rem then rdx else rax))])

/-- native/amd64.c:7-18 `asm_setcc_integer_trans`. -/
def setcc : Code → Option CC
  | .slt => some .l
  | .uslt => some .b
  | .sle => some .le
  | .usle => some .be
  | .sgt => some .g
  | .usgt => some .a
  | .sge => some .ge
  | .usge => some .ae
  | .see => some .e
  | .sne => some .ne
  | _ => none

/-- lower/amd64.c:397-401, native/amd64.c:972-995. -/
def scc (cc : CC) (k : Kind) (a b : Opd) (out : R) : List I :=
  (imm k b).1 ++ (inReg k (.l 2) a).1 ++ [.cmp k.width (inReg k (.l 2) a).2 (imm k b).2, .set cc out]

/-- lower/amd64.c:328-474 `amd64_lower_block` and the table of native/amd64.c, for one operation on integers. -/
def select (o : Lir) : List I :=
  let k := o.kind
  match o.code with
  | .add => ternary .add k o.first o.second o.out
  | .sub => ternary .sub k o.first o.second o.out
  | .and => ternary .and k o.first o.second o.out
  | .or => ternary .or k o.first o.second o.out
  | .xor => ternary .xor k o.first o.second o.out
  | .mul => mul k o.first o.second o.out
  | .udiv => factor false false k o.first o.second o.out
  | .sdiv => factor true false k o.first o.second o.out
  | .urem => factor false true k o.first o.second o.out
  | .srem => factor true true k o.first o.second o.out
  | .ushl => shift .sal k o.first o.second o.out
  | .ushr => shift .shr k o.first o.second o.out
  | .sshr => shift .sar k o.first o.second o.out
  -- native/amd64.c:470-484, 594-610: a move and the operation
  | .neg => [.mov k.width o.out o.first, .neg k.width o.out]
  | .not => [.mov k.width o.out o.first, .not k.width o.out]
  -- lower/amd64.c:430-452, native/amd64.c:943-966, 709-736
  | .sext => (inReg o.from_ (.l 2) o.first).1 ++ [.movsx k.width o.out o.from_.width (inReg o.from_ (.l 2) o.first).2]
  | .uext => (inReg o.from_ (.l 2) o.first).1 ++ [.movzx k.width o.out o.from_.width (inReg o.from_ (.l 2) o.first).2]
  | .trunc => (inReg o.from_ (.l 2) o.first).1 ++ [.mov k.width o.out (.reg (inReg o.from_ (.l 2) o.first).2)]
  | .move => [.mov k.width o.out o.first]
  | c =>
    match setcc c with
    | some cc => scc cc o.from_ o.first o.second o.out
    | none => []

def code (ls : List Lir) : List I := ls.flatMap select

end Nature.Arith.Amd64
