import Verif.Amd64.Types
/-! What the bytes mean: an instruction decoder for 64-bit mode, written from the processor manual (Intel
SDM volume 2, chapters 2 and 3 and the opcode maps of appendix A), not from the encoder.  It knows the
opcodes this compiler can ask for and some neighbours. -/
namespace Nature.Amd64.Spec
open Nature.Amd64

/-- Processor mnemonics.  `jcc`/`setcc` carry the condition number of the manual. -/
inductive Mnem
  | add | or_ | adc | sbb | and_ | sub | xor_ | cmp | test_ | mov | movsxd | movsx | movzx | lea | push
  | pop | call | jmp | ret | syscall | jcc (c : Nat) | setcc (c : Nat) | not_ | neg | mul | imul | div | idiv
  | inc | dec | rol | ror | rcl | rcr | shl | shr | sar
  | movups | movupd | movss | movsd | movaps | movapd | cvtsi2ss | cvtsi2sd | cvttss2si | cvttsd2si
  | cvtss2sd | cvtsd2ss | cvtps2pd | cvtpd2ps | comiss | comisd | xorps | xorpd | addps | addpd | addss | addsd | mulps | mulpd
  | mulss | mulsd | subps | subpd | subss | subsd | divps | divpd | divss | divsd
  deriving DecidableEq, Repr

/-- The base of an address. -/
inductive Base | none | reg (n : Nat) | rip
  deriving DecidableEq, Repr

/-- An operand of a decoded instruction: general registers by width and number, the four high byte
registers by the number of their word register, xmm registers, memory (segment override, base, index with
scale, displacement, bytes accessed), and the bytes of an immediate as an unsigned number. -/
inductive Arg
  | gpr (size n : Nat)
  | high (n : Nat)
  | xmm (n : Nat)
  | mem (seg : Option Seg) (base : Base) (index : Option (Nat × Nat)) (disp : Int) (size : Nat)
  | imm (bytes v : Nat)
  deriving DecidableEq, Repr

structure Insn where
  mnem : Mnem
  args : List Arg
  deriving DecidableEq, Repr

/-! ## The decoder -/

/-- Prefixes: operand size (66), repeat (F2 = 2, F3 = 3), segment, and the REX byte. -/
structure Pfx where
  op16 : Bool := false
  rep : Nat := 0
  seg : Option Seg := none
  rex : Option Nat := none
  deriving DecidableEq, Repr

def isLegacy (b : Nat) : Bool := b == 0x66 || b == 0xf2 || b == 0xf3 || b == 0x64 || b == 0x65
def isRex (b : Nat) : Bool := decide (0x40 ≤ b) && decide (b < 0x50)

/-- One legacy prefix. -/
def Pfx.legacy (p : Pfx) (b : Nat) : Pfx :=
  if b = 0x66 then { p with op16 := true } else if b = 0xf2 then { p with rep := 2 }
  else if b = 0xf3 then { p with rep := 3 } else if b = 0x64 then { p with seg := some .fs }
  else { p with seg := some .gs }

/-- Prefixes in front of the opcode.  A REX byte counts only when it immediately precedes the opcode. -/
def prefixes (p : Pfx) : List Nat → Pfx × List Nat
  | [] => (p, [])
  | b :: bs =>
    if isLegacy b then prefixes (p.legacy b) bs
    else if isRex b then
      match bs with
      | c :: _ => if isLegacy c || isRex c then prefixes p bs else ({ p with rex := some b }, bs)
      | [] => (p, [])
    else (p, b :: bs)

def Pfx.w (p : Pfx) : Bool := decide ((p.rex.getD 0) / 8 % 2 = 1)
def Pfx.r (p : Pfx) : Nat := (p.rex.getD 0) / 4 % 2 * 8
def Pfx.x (p : Pfx) : Nat := (p.rex.getD 0) / 2 % 2 * 8
def Pfx.b (p : Pfx) : Nat := (p.rex.getD 0) % 2 * 8

/-- How an operand is found: `E`/`G` general register or memory / general register in ModRM, `W`/`V` the
same for xmm, `M` memory only, `Z` register in the opcode's low bits, `I` immediate of so many bytes,
`CL` the register cl. -/
inductive Form | E (s : Nat) | G (s : Nat) | W (s : Nat) | V | M (s : Nat) | Z (s : Nat) | I (n : Nat) | CL
  deriving DecidableEq, Repr

def Form.usesModrm : Form → Bool
  | .E _ | .G _ | .W _ | .V | .M _ => true
  | _ => false

/-- Group 1. -/
def alu : Nat → Mnem
  | 0 => .add | 1 => .or_ | 2 => .adc | 3 => .sbb | 4 => .and_ | 5 => .sub | 6 => .xor_ | _ => .cmp
/-- Group 2. -/
def shift : Nat → Mnem
  | 0 => .rol | 1 => .ror | 2 => .rcl | 3 => .rcr | 4 => .shl | 5 => .shr | 6 => .shl | _ => .sar
/-- Group 3, without its `test` members. -/
def unary : Nat → Option Mnem
  | 2 => some .not_ | 3 => some .neg | 4 => some .mul | 5 => some .imul | 6 => some .div | 7 => some .idiv
  | _ => none

/-- Operand size in effect. -/
def osize (op16 w : Bool) : Nat := if w then 8 else if op16 then 2 else 4

/-- One byte opcodes.  `reg` is the ModRM field that extends some of them. -/
def table1 (op16 w : Bool) (b reg : Nat) : Option (Mnem × List Form) :=
  let o := osize op16 w
  let z := if o = 2 then 2 else 4
  if b < 0x40 then match b % 8 with
    | 0 => some (alu (b / 8), [.E 1, .G 1])
    | 1 => some (alu (b / 8), [.E o, .G o])
    | 2 => some (alu (b / 8), [.G 1, .E 1])
    | 3 => some (alu (b / 8), [.G o, .E o])
    | _ => none
  else if b < 0x50 then none
  else if b < 0x58 then some (.push, [.Z 8])
  else if b < 0x60 then some (.pop, [.Z 8])
  else if b = 0x63 then some (.movsxd, [.G o, .E 4])
  else if b = 0x69 then some (.imul, [.G o, .E o, .I z])
  else if b = 0x6b then some (.imul, [.G o, .E o, .I 1])
  else if b < 0x70 then none
  else if b < 0x80 then some (.jcc (b % 16), [.I 1])
  else if b = 0x80 then some (alu reg, [.E 1, .I 1])
  else if b = 0x81 then some (alu reg, [.E o, .I z])
  else if b = 0x83 then some (alu reg, [.E o, .I 1])
  else if b = 0x84 then some (.test_, [.E 1, .G 1])
  else if b = 0x85 then some (.test_, [.E o, .G o])
  else if b = 0x88 then some (.mov, [.E 1, .G 1])
  else if b = 0x89 then some (.mov, [.E o, .G o])
  else if b = 0x8a then some (.mov, [.G 1, .E 1])
  else if b = 0x8b then some (.mov, [.G o, .E o])
  else if b = 0x8d then some (.lea, [.G o, .M 0])
  else if b = 0x8f then if reg = 0 then some (.pop, [.E 8]) else none
  else if b < 0xb0 then none
  else if b < 0xb8 then some (.mov, [.Z 1, .I 1])
  else if b < 0xc0 then some (.mov, [.Z o, .I o])
  else if b = 0xc0 then some (shift reg, [.E 1, .I 1])
  else if b = 0xc1 then some (shift reg, [.E o, .I 1])
  else if b = 0xc3 then some (.ret, [])
  else if b = 0xc6 then if reg = 0 then some (.mov, [.E 1, .I 1]) else none
  else if b = 0xc7 then if reg = 0 then some (.mov, [.E o, .I z]) else none
  else if b = 0xd2 then some (shift reg, [.E 1, .CL])
  else if b = 0xd3 then some (shift reg, [.E o, .CL])
  else if b = 0xe8 then some (.call, [.I 4])
  else if b = 0xe9 then some (.jmp, [.I 4])
  else if b = 0xeb then some (.jmp, [.I 1])
  else if b = 0xf6 then (unary reg).map fun m => (m, [.E 1])
  else if b = 0xf7 then (unary reg).map fun m => (m, [.E o])
  else if b = 0xfe then match reg with
    | 0 => some (.inc, [.E 1])
    | 1 => some (.dec, [.E 1])
    | _ => none
  else if b = 0xff then match reg with
    | 0 => some (.inc, [.E o])
    | 1 => some (.dec, [.E o])
    | 2 => some (.call, [.E 8])
    | 4 => some (.jmp, [.E 8])
    | 6 => some (.push, [.E 8])
    | _ => none
  else none

/-- Picks by mandatory prefix: none, 66, F3, F2. -/
def sse {α : Type} (op16 : Bool) (rep : Nat) (none' p66 pf3 pf2 : α) : α :=
  if rep = 3 then pf3 else if rep = 2 then pf2 else if op16 then p66 else none'

/-- Opcodes after 0F. -/
def table2 (op16 w : Bool) (rep b : Nat) : Option (Mnem × List Form) :=
  let o := osize op16 w
  if b = 0x05 then some (.syscall, [])
  else if b = 0x10 then sse op16 rep (some (.movups, [.V, .W 16])) (some (.movupd, [.V, .W 16]))
    (some (.movss, [.V, .W 4])) (some (.movsd, [.V, .W 8]))
  else if b = 0x11 then sse op16 rep (some (.movups, [.W 16, .V])) (some (.movupd, [.W 16, .V]))
    (some (.movss, [.W 4, .V])) (some (.movsd, [.W 8, .V]))
  else if b = 0x28 then sse op16 rep (some (.movaps, [.V, .W 16])) (some (.movapd, [.V, .W 16])) none none
  else if b = 0x29 then sse op16 rep (some (.movaps, [.W 16, .V])) (some (.movapd, [.W 16, .V])) none none
  else if b = 0x2a then sse op16 rep none none (some (.cvtsi2ss, [.V, .E (if w then 8 else 4)]))
    (some (.cvtsi2sd, [.V, .E (if w then 8 else 4)]))
  else if b = 0x2c then sse op16 rep none none (some (.cvttss2si, [.G (if w then 8 else 4), .W 4]))
    (some (.cvttsd2si, [.G (if w then 8 else 4), .W 8]))
  else if b = 0x2f then sse op16 rep (some (.comiss, [.V, .W 4])) (some (.comisd, [.V, .W 8])) none none
  else if b = 0x57 then sse op16 rep (some (.xorps, [.V, .W 16])) (some (.xorpd, [.V, .W 16])) none none
  else if b = 0x58 then sse op16 rep (some (.addps, [.V, .W 16])) (some (.addpd, [.V, .W 16]))
    (some (.addss, [.V, .W 4])) (some (.addsd, [.V, .W 8]))
  else if b = 0x59 then sse op16 rep (some (.mulps, [.V, .W 16])) (some (.mulpd, [.V, .W 16]))
    (some (.mulss, [.V, .W 4])) (some (.mulsd, [.V, .W 8]))
  else if b = 0x5a then sse op16 rep (some (.cvtps2pd, [.V, .W 8])) (some (.cvtpd2ps, [.V, .W 16]))
    (some (.cvtss2sd, [.V, .W 4])) (some (.cvtsd2ss, [.V, .W 8]))
  else if b = 0x5c then sse op16 rep (some (.subps, [.V, .W 16])) (some (.subpd, [.V, .W 16]))
    (some (.subss, [.V, .W 4])) (some (.subsd, [.V, .W 8]))
  else if b = 0x5e then sse op16 rep (some (.divps, [.V, .W 16])) (some (.divpd, [.V, .W 16]))
    (some (.divss, [.V, .W 4])) (some (.divsd, [.V, .W 8]))
  else if b < 0x80 then none
  else if b < 0x90 then some (.jcc (b % 16), [.I 4])
  else if b < 0xa0 then some (.setcc (b % 16), [.E 1])
  else if b = 0xaf then some (.imul, [.G o, .E o])
  else if b = 0xb6 then some (.movzx, [.G o, .E 1])
  else if b = 0xb7 then some (.movzx, [.G o, .E 2])
  else if b = 0xbe then some (.movsx, [.G o, .E 1])
  else if b = 0xbf then some (.movsx, [.G o, .E 2])
  else none

/-- A little endian number of `n` bytes and what follows it. -/
def le : Nat → List Nat → Option (Nat × List Nat)
  | 0, bs => some (0, bs)
  | _ + 1, [] => none
  | n + 1, b :: bs => (le n bs).map fun (v, r) => (b + 256 * v, r)

/-- The same, read as a two's complement number. -/
def sle (n : Nat) (bs : List Nat) : Option (Int × List Nat) :=
  (le n bs).map fun (v, r) => (if 2 * v < 256 ^ n then (v : Int) else (v : Int) - (256 : Int) ^ n, r)

/-- What the ModRM byte's `rm` side designates. -/
inductive Rm | direct (n : Nat) | mem (base : Base) (index : Option (Nat × Nat)) (disp : Int)
  deriving DecidableEq, Repr

/-- Displacement by `mod`: none, 8 or 32 bits. -/
def dispOf (mod : Nat) (bs : List Nat) : Option (Int × List Nat) :=
  if mod = 1 then sle 1 bs else if mod = 2 then sle 4 bs else some (0, bs)

/-- ModRM, SIB and displacement (SDM volume 2, tables 2-2 and 2-3, and 2.2.1). -/
def modrm (p : Pfx) : List Nat → Option (Nat × Rm × List Nat)
  | [] => none
  | m :: bs =>
    let mod := m / 64
    let reg := p.r + m / 8 % 8
    let rm := m % 8
    if mod = 3 then some (reg, .direct (p.b + rm), bs)
    else if rm = 4 then
      match bs with
      | [] => none
      | s :: bs =>
        let idx := p.x + s / 8 % 8
        let index := if idx = 4 then none else some (idx, 2 ^ (s / 64))
        if mod = 0 ∧ s % 8 = 5 then (sle 4 bs).map fun (d, r) => (reg, .mem .none index d, r)
        else (dispOf mod bs).map fun (d, r) => (reg, .mem (.reg (p.b + s % 8)) index d, r)
    else if mod = 0 ∧ rm = 5 then (sle 4 bs).map fun (d, r) => (reg, .mem .rip none d, r)
    else (dispOf mod bs).map fun (d, r) => (reg, .mem (.reg (p.b + rm)) none d, r)

/-- A general register of the given width: without a REX byte the byte registers 4-7 are ah, ch, dh, bh. -/
def gpr (p : Pfx) (s n : Nat) : Arg :=
  if s = 1 ∧ p.rex = none ∧ 4 ≤ n ∧ n < 8 then .high (n - 4) else .gpr s n

def rmArg (p : Pfx) (s : Nat) (direct : Nat → Arg) : Rm → Arg
  | .direct n => direct n
  | .mem b i d => .mem p.seg b i d s

/-- The operand a form designates. -/
def argOf (p : Pfx) (opc reg : Nat) (rm : Rm) (imm : Nat) : Form → Option Arg
  | .E s => some (rmArg p s (gpr p s) rm)
  | .G s => some (gpr p s reg)
  | .W s => some (rmArg p s .xmm rm)
  | .V => some (.xmm reg)
  | .M s => match rm with
    | .direct _ => none
    | _ => some (rmArg p s .xmm rm)
  | .Z s => some (gpr p s (p.b + opc % 8))
  | .I n => some (.imm n imm)
  | .CL => some (.gpr 1 1)

def Form.immSize : Form → Nat
  | .I n => n
  | _ => 0

def argsOf (p : Pfx) (opc reg : Nat) (rm : Rm) (imm : Nat) : List Form → Option (List Arg)
  | [] => some []
  | f :: fs => do
    let a ← argOf p opc reg rm imm f
    let as ← argsOf p opc reg rm imm fs
    return a :: as

/-- The table for an opcode. -/
def lookup (op16 w : Bool) (rep : Nat) (two : Bool) (b reg : Nat) : Option (Mnem × List Form) :=
  if two then table2 op16 w rep b else table1 op16 w b reg

/-- Operands once the opcode is known. -/
def operands (p : Pfx) (opc : Nat) (bs : List Nat) (m : Mnem) (fs : List Form) : Option (Insn × List Nat) := do
  let (reg, rm, bs) ← if fs.any Form.usesModrm then modrm p bs else some (0, .direct 0, bs)
  let (imm, bs) ← le ((fs.map Form.immSize).sum) bs
  let args ← argsOf p opc reg rm imm fs
  return (⟨m, args⟩, bs)

/-- One instruction from the front of a byte stream, and the bytes after it. -/
def decode (bs : List Nat) : Option (Insn × List Nat) :=
  let (p, bs) := prefixes {} bs
  match bs with
  | [] => none
  | b :: bs =>
    if b = 0x0f then
      match bs with
      | [] => none
      | c :: bs => do
        let (m, fs) ← lookup p.op16 p.w p.rep true c 0
        operands p c bs m fs
    else do
      let (m, fs) ← lookup p.op16 p.w p.rep false b (bs.headD 0 / 8 % 8)
      operands p b bs m fs

/-! ## What is asked for -/

/-- Condition numbers (SDM volume 1, appendix B). -/
def cond : Name → Option Nat
  | .jb | .setb => some 2
  | .jae | .setae => some 3
  | .je | .sete => some 4
  | .jne | .setne => some 5
  | .jbe | .setbe => some 6
  | .ja | .seta => some 7
  | .jl | .setl => some 12
  | .jge | .setge => some 13
  | .jle | .setle => some 14
  | .jg | .setg => some 15
  | _ => none

/-- Width of the first xmm operand. -/
def fwidth : List Key → Option Nat
  | [] => none
  | (.freg, s) :: _ => some s
  | _ :: ks => fwidth ks

/-- The mnemonics that do what a name asks for, given the operand kinds.  Between xmm registers a copy of
the scalar or of the whole register will do.  A 32-bit destination zero extends to 64 bits, so `movzx` from
32 to 64 bits is a 32-bit `mov`. -/
def mnems (n : Name) (ks : List Key) : List Mnem :=
  match n with
  | .lea => [.lea] | .syscall_inst => [.syscall] | .call => [.call] | .jmp => [.jmp] | .ret => [.ret]
  | .push => [.push] | .pop => [.pop] | .idiv => [.idiv] | .div => [.div] | .imul => [.imul] | .mul => [.mul]
  | .test_ => [.test_] | .neg => [.neg] | .not_ => [.not_] | .inc => [.inc] | .dec => [.dec] | .or_ => [.or_]
  | .and_ => [.and_] | .sal => [.shl] | .sar => [.sar] | .shr => [.shr] | .movxmm128 => [.movups]
  | .cvtsi2ss => [.cvtsi2ss] | .cvtsi2sd => [.cvtsi2sd] | .cvttss2si => [.cvttss2si]
  | .cvttsd2si => [.cvttsd2si] | .cvtss2sd => [.cvtss2sd] | .cvtsd2ss => [.cvtsd2ss]
  | .je | .jne | .ja | .jae | .jb | .jbe | .jg | .jge | .jl | .jle => (cond n).toList.map .jcc
  | .sete | .setne | .seta | .setae | .setb | .setbe | .setg | .setge | .setl | .setle =>
    (cond n).toList.map .setcc
  | .add => match fwidth ks with
    | some 4 => [.addss]
    | some 8 => [.addsd]
    | _ => [.add]
  | .sub => match fwidth ks with
    | some 4 => [.subss]
    | some 8 => [.subsd]
    | _ => [.sub]
  | .fmul => match fwidth ks with
    | some 4 => [.mulss]
    | some 8 => [.mulsd]
    | _ => []
  | .fdiv => match fwidth ks with
    | some 4 => [.divss]
    | some 8 => [.divsd]
    | _ => []
  | .cmp => match fwidth ks with
    | some 4 => [.comiss]
    | some 8 => [.comisd]
    | _ => [.cmp]
  | .xor_ => match fwidth ks with
    | some 4 => [.xorps, .xorpd]
    | some 8 => [.xorps, .xorpd]
    | _ => [.xor_]
  | .mov => match ks with
    | [(.freg, 4), (.freg, 4)] => [.movaps, .movapd, .movss]
    | [(.freg, 8), (.freg, 8)] => [.movaps, .movapd, .movsd]
    | _ => match fwidth ks with
      | some 4 => [.movss]
      | some 8 => [.movsd]
      | _ => [.mov]
  | .movsx => if (ks.map (·.2)) = [8, 4] then [.movsxd] else [.movsx]
  | .movzx => if (ks.map (·.2)) = [8, 4] then [.mov] else [.movzx]

/-- The width at which each operand is to be used: its own, except that `lea` accesses no memory,
`movxmm128` moves sixteen bytes, the 32 to 64 bit `movzx` writes a 32-bit register, and an immediate
declared without a width is one of four bytes. -/
def widths (n : Name) (ks : List Key) : List Nat :=
  match n with
  | .lea => [8, 0]
  | .movxmm128 => [16, 16]
  | .movzx => if (ks.map (·.2)) = [8, 4] then [4, 4] else ks.map (·.2)
  | _ => ks.map fun k => if k.1 = .uint then 4 else k.2

/-- The operand a request names, used at a width. -/
def argAt (s : Nat) : Operand → Arg
  | .reg r => if r.float then .xmm r.idx else if r.high then .high (r.idx - 4) else .gpr s r.idx
  | .ind r _ => .mem none (.reg r.idx) none 0 s
  | .disp r d _ => .mem none (.reg r.idx) none d s
  | .sib b i sc d _ => .mem none (match b with
      | some b => .reg b.idx
      | none => .none) (i.map fun i => (i.idx, if sc = 0 then 1 else sc)) d s
  | .rip d _ => .mem none .rip none d s
  | .seg sg d => .mem (some sg) .none none d s
  | .u8 v | .u16 v | .u32 v | .u64 v | .uint v => .imm s v

/-- The instructions that carry out a request. -/
def accepted (i : Inst) : List Insn :=
  let ks := i.ops.map Operand.key
  (mnems i.name ks).map fun m => ⟨m, List.zipWith argAt (widths i.name ks) i.ops⟩

/-! ## Which requests make sense -/

/-- A register of the machine; the high byte registers are numbered 4-7. -/
def RegOk (r : Reg) : Prop :=
  r.idx < 16 ∧ (r.high = true → r.float = false ∧ r.size = 1 ∧ 4 ≤ r.idx ∧ r.idx < 8)

/-- A register an address can be made of. -/
def AddrReg (r : Reg) : Prop := r.idx < 16 ∧ r.size = 8 ∧ r.float = false ∧ r.high = false

/-- Fits an `int32_t`. -/
def Int32 (d : Int) : Prop := -2147483648 ≤ d ∧ d < 2147483648

/-- An operand that exists on this processor: numbers in range, and rsp is never an index. -/
def OperandOk : Operand → Prop
  | .reg r => RegOk r
  | .ind r _ => AddrReg r
  | .disp r d _ => AddrReg r ∧ Int32 d
  | .sib b i _ d _ => (∀ r, b = some r → AddrReg r) ∧ (∀ r, i = some r → AddrReg r ∧ r.idx ≠ 4) ∧ Int32 d
  | .rip d _ => Int32 d
  | .seg s d => s ≠ .other ∧ Int32 d
  | .u8 v => v < 256
  | .u16 v => v < 65536
  | .u32 v | .uint v => v < 4294967296
  | .u64 v => v < 18446744073709551616

def Sensible (i : Inst) : Prop := ∀ o ∈ i.ops, OperandOk o

end Nature.Amd64.Spec
