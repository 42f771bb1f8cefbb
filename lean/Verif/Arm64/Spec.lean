/-
AArch64: what a 32-bit instruction word means to the processor, and what the instructions of the assembly language mean.
Source: Arm Architecture Reference Manual for A-profile, part C (the A64 instruction set).  Nothing here refers to the encoder.
Not described: faults (alignment of the stack pointer, unmapped memory), the upper halves of the vector registers.
-/
namespace Nature.Arm64

/-! ### The processor -/

inductive Cond
  | eq | ne | hs | lo | mi | pl | vs | vc | hi | ls | ge | lt | gt | le | al | nv
deriving DecidableEq, Repr

structure St where
  x : Nat → BitVec 64
  sp : BitVec 64
  pc : BitVec 64
  n : Bool
  z : Bool
  c : Bool
  v : Bool
  mem : BitVec 64 → BitVec 8
  f : Nat → BitVec 64
  sys : Nat → BitVec 64
  svc : Option Nat

/-- 64 or 32. -/
abbrev wd (q : Bool) : Nat := if q then 64 else 32

inductive F2
  | add | sub | mul | div
deriving DecidableEq, Repr

/-- Floating point arithmetic, left open. -/
structure Fpu where
  two : F2 → (d : Bool) → BitVec (wd d) → BitVec (wd d) → BitVec (wd d)
  /-- `a + n * m`, with the product negated, with the sum's first term negated. -/
  fma : (d : Bool) → (negP negA : Bool) → (a n m : BitVec (wd d)) → BitVec (wd d)
  neg : (d : Bool) → BitVec (wd d) → BitVec (wd d)
  sqrt : (d : Bool) → BitVec (wd d) → BitVec (wd d)
  /-- Flags of a comparison. -/
  cmp : (d : Bool) → BitVec (wd d) → BitVec (wd d) → Bool × Bool × Bool × Bool
  cvt : (from_ to : Bool) → BitVec (wd from_) → BitVec (wd to)
  ofInt : (signed q d : Bool) → BitVec (wd q) → BitVec (wd d)
  toInt : (signed q d : Bool) → BitVec (wd d) → BitVec (wd q)
  /-- The number an 8-bit pattern abbreviates. -/
  imm8 : (d : Bool) → Nat → BitVec (wd d)

def Cond.holds (s : St) : Cond → Bool
  | .eq => s.z
  | .ne => !s.z
  | .hs => s.c
  | .lo => !s.c
  | .mi => s.n
  | .pl => !s.n
  | .vs => s.v
  | .vc => !s.v
  | .hi => s.c && !s.z
  | .ls => !(s.c && !s.z)
  | .ge => s.n == s.v
  | .lt => s.n != s.v
  | .gt => !s.z && s.n == s.v
  | .le => !(!s.z && s.n == s.v)
  | .al => true
  | .nv => true

/-- `k` bytes from address `a` on, the lowest first. -/
def rd (m : BitVec 64 → BitVec 8) (a : BitVec 64) : Nat → BitVec 64
  | 0 => 0
  | k + 1 => (m a).setWidth 64 ||| (rd m (a + 1) k <<< 8)

def wr (m : BitVec 64 → BitVec 8) (a : BitVec 64) (v : BitVec 64) : Nat → (BitVec 64 → BitVec 8)
  | 0 => m
  | k + 1 => wr (fun b => if b = a then v.setWidth 8 else m b) (a + 1) (v >>> 8) k

/-- The low `b` bits of `v` as a signed number, in `w` bits. -/
def sext (b w : Nat) (v : BitVec 64) : BitVec w := (v.setWidth b).signExtend w

def St.step (s : St) : St := { s with pc := s.pc + 4 }

def St.flags (s : St) (n z c v : Bool) : St := { s with n := n, z := z, c := c, v := v }

/-- The flags of `a - b` and of `a + b`. -/
def St.subFlags {w : Nat} (s : St) (a b : BitVec w) : St :=
  s.flags (a - b).msb (decide (a = b)) (decide (b.toNat ≤ a.toNat)) (decide ((a - b).toInt ≠ a.toInt - b.toInt))
def St.addFlags {w : Nat} (s : St) (a b : BitVec w) : St :=
  s.flags (a + b).msb (decide (a + b = 0)) (decide (2 ^ w ≤ a.toNat + b.toNat)) (decide ((a + b).toInt ≠ a.toInt + b.toInt))

def sdiv {w : Nat} (a b : BitVec w) : BitVec w := if b = 0 then 0 else BitVec.ofInt w (a.toInt.tdiv b.toInt)
def udiv {w : Nat} (a b : BitVec w) : BitVec w := if b = 0 then 0 else BitVec.ofNat w (a.toNat / b.toNat)

/-- The eight ways to extend a register: unsigned and signed, byte, half, word, all. -/
def extend (o : Nat) (v : BitVec 64) : BitVec 64 :=
  match o with
  | 0 => (v.setWidth 8).setWidth 64
  | 1 => (v.setWidth 16).setWidth 64
  | 2 => (v.setWidth 32).setWidth 64
  | 4 => sext 8 64 v
  | 5 => sext 16 64 v
  | 6 => sext 32 64 v
  | _ => v

inductive Shift
  | lsl | lsr | asr | ror
deriving DecidableEq, Repr

def shiftBy {w : Nat} (k : Shift) (v : BitVec w) (n : Nat) : BitVec w :=
  match k with
  | .lsl => v <<< n
  | .lsr => v >>> n
  | .asr => v.sshiftRight n
  | .ror => v.rotateRight n

/-! ### Instructions as the processor sees them: registers are numbers below 32 -/

inductive Logic
  | and | orr | eor
deriving DecidableEq, Repr

inductive Dp2
  | udiv | sdiv | lslv | lsrv | asrv
deriving DecidableEq, Repr

/-- How an address is made from the base register. -/
inductive Am
  | uoff (k : Nat)
  | off (o : Int)
  | pre (o : Int)
  | post (o : Int)
  | reg (m o : Nat) (scaled : Bool)
deriving DecidableEq, Repr

inductive Insn
  | movz (q : Bool) (hw imm d : Nat)
  | movn (q : Bool) (hw imm d : Nat)
  | movk (q : Bool) (hw imm d : Nat)
  | addsubi (sub S q : Bool) (imm n d : Nat)
  | addsubs (sub S q : Bool) (k : Shift) (amt m n d : Nat)
  | addsube (sub S q : Bool) (o amt m n d : Nat)
  | logic (op : Logic) (inv q : Bool) (k : Shift) (amt m n d : Nat)
  | bfm (signed q : Bool) (immr imms n d : Nat)
  | dp2 (op : Dp2) (q : Bool) (m n d : Nat)
  | dp3 (sub q : Bool) (m a n d : Nat)
  | csinc (q : Bool) (m c n d : Nat)
  | adrp (imm : Int) (d : Nat)
  | b (off : Int)
  | bl (off : Int)
  | bcond (c : Nat) (off : Int)
  | cb (nz q : Bool) (t : Nat) (off : Int)
  | br (n : Nat)
  | blr (n : Nat)
  | ret (n : Nat)
  | svc (imm : Nat)
  | mrs (r t : Nat)
  | nop
  /-- `size` is the logarithm of the number of bytes. -/
  | ld (size : Nat) (am : Am) (n t : Nat)
  | lds (size : Nat) (q : Bool) (am : Am) (n t : Nat)
  | st (size : Nat) (am : Am) (n t : Nat)
  | fld (d : Bool) (am : Am) (n t : Nat)
  | fst (d : Bool) (am : Am) (n t : Nat)
  /-- The offset is in bytes. -/
  | ldp (q : Bool) (am : Am) (u n t : Nat)
  | stp (q : Bool) (am : Am) (u n t : Nat)
  | fldp (d : Bool) (am : Am) (u n t : Nat)
  | fstp (d : Bool) (am : Am) (u n t : Nat)
  | fmov (dbl : Bool) (n d : Nat)
  | fneg (dbl : Bool) (n d : Nat)
  | fsqrt (dbl : Bool) (n d : Nat)
  | fcvt (from_ to : Bool) (n d : Nat)
  | fcmp (dbl : Bool) (m n : Nat)
  | fmovi (dbl : Bool) (imm d : Nat)
  | f2 (op : F2) (dbl : Bool) (m n d : Nat)
  | f3 (negP negA dbl : Bool) (m a n d : Nat)
  | ofInt (signed q dbl : Bool) (n d : Nat)
  | toInt (signed q dbl : Bool) (n d : Nat)
  | fmovx (q : Bool) (n d : Nat)
deriving DecidableEq, Repr

/-! ### Decoding -/

/-- The number `n` bits represent in two's complement. -/
def sgn (n v : Nat) : Int := if v < 2 ^ (n - 1) then (v : Int) else (v : Int) - 2 ^ n

def isOne (n : Nat) : Bool := n == 1

def shiftOf : Nat → Shift
  | 0 => .lsl
  | 1 => .lsr
  | 2 => .asr
  | _ => .ror

/-- Loads and stores of one register, by their size, whether it is a vector register, and the operation. -/
def mem1 (size vec opc : Nat) (am : Am) (n t : Nat) : Option Insn :=
  if vec = 1 then
    match size, opc with
    | 2, 0 => some (.fst false am n t)
    | 2, 1 => some (.fld false am n t)
    | 3, 0 => some (.fst true am n t)
    | 3, 1 => some (.fld true am n t)
    | _, _ => none
  else
    match opc with
    | 0 => some (.st size am n t)
    | 1 => some (.ld size am n t)
    | 2 => if size < 3 then some (.lds size true am n t) else none
    | _ => if size < 2 then some (.lds size false am n t) else none

def mem2 (opc vec load : Nat) (am : Nat → Am) (u n t : Nat) : Option Insn :=
  match vec, opc, load with
  | 0, 0, 0 => some (.stp false (am 4) u n t)
  | 0, 0, _ => some (.ldp false (am 4) u n t)
  | 0, 2, 0 => some (.stp true (am 8) u n t)
  | 0, 2, _ => some (.ldp true (am 8) u n t)
  | 1, 0, 0 => some (.fstp false (am 4) u n t)
  | 1, 0, _ => some (.fldp false (am 4) u n t)
  | 1, 1, 0 => some (.fstp true (am 8) u n t)
  | 1, 1, _ => some (.fldp true (am 8) u n t)
  | _, _, _ => none

/-- Scalar floating point operations on one format; `ty` is that format. -/
def fp (dbl : Bool) (rm x rn rd : Nat) : Option Insn :=
  if x % 32 = 16 then
    match rm * 2 + x / 32 with
    | 0 => some (.fmov dbl rn rd)
    | 2 => some (.fneg dbl rn rd)
    | 3 => some (.fsqrt dbl rn rd)
    | 4 => if dbl then some (.fcvt true false rn rd) else none
    | 5 => if dbl then none else some (.fcvt false true rn rd)
    | _ => none
  else if x = 8 then
    if rd = 0 then some (.fcmp dbl rm rn) else none
  else if x % 8 = 4 then
    if rn = 0 then some (.fmovi dbl (rm * 8 + x / 8) rd) else none
  else if x % 4 = 2 then
    match x / 4 with
    | 0 => some (.f2 .mul dbl rm rn rd)
    | 1 => some (.f2 .div dbl rm rn rd)
    | 2 => some (.f2 .add dbl rm rn rd)
    | 3 => some (.f2 .sub dbl rm rn rd)
    | _ => none
  else none

/-- Conversions between the two kinds of registers. -/
def conv (q dbl : Bool) (rm rn rd : Nat) : Option Insn :=
  match rm with
  | 2 => some (.ofInt true q dbl rn rd)
  | 3 => some (.ofInt false q dbl rn rd)
  | 7 => if q = dbl then some (.fmovx q rn rd) else none
  | 24 => some (.toInt true q dbl rn rd)
  | 25 => some (.toInt false q dbl rn rd)
  | _ => none

/-- An instruction word by its bits 31-21 (`top`), 20-16, 15-10, 9-5 and 4-0. -/
def decodeF (top rm x rn rd : Nat) : Option Insn :=
  let q := isOne (top / 1024)
  let imm26 := top % 32 * 2 ^ 21 + rm * 2 ^ 16 + x * 2 ^ 10 + rn * 2 ^ 5 + rd
  let imm19 := top % 8 * 2 ^ 16 + rm * 2 ^ 11 + x * 2 ^ 5 + rn
  let imm16 := rm * 2 ^ 11 + x * 2 ^ 5 + rn
  let imm12 := top % 2 * 2 ^ 11 + rm * 2 ^ 6 + x
  -- branches
  if top / 32 = 5 then some (.b (4 * sgn 26 imm26))
  else if top / 32 = 37 then some (.bl (4 * sgn 26 imm26))
  else if top / 8 = 0x54 then if rd < 16 then some (.bcond rd (4 * sgn 19 imm19)) else none
  else if top / 8 % 128 = 0x34 then some (.cb false q rd (4 * sgn 19 imm19))
  else if top / 8 % 128 = 0x35 then some (.cb true q rd (4 * sgn 19 imm19))
  else if top = 0x6b0 then if rm = 31 ∧ x = 0 ∧ rd = 0 then some (.br rn) else none
  else if top = 0x6b1 then if rm = 31 ∧ x = 0 ∧ rd = 0 then some (.blr rn) else none
  else if top = 0x6b2 then if rm = 31 ∧ x = 0 ∧ rd = 0 then some (.ret rn) else none
  else if top = 0x6a0 then if rd = 1 then some (.svc imm16) else none
  else if top = 0x6a9 then if 16 ≤ rm then some (.mrs (imm16 % 2 ^ 15) rd) else none
  else if top = 0x6a8 then if rm = 3 ∧ x = 8 ∧ rn = 0 ∧ rd = 31 then some .nop else none
  -- one immediate
  else if top / 8 % 32 = 0x10 ∧ top / 1024 = 1 then some (.adrp (4096 * sgn 21 (imm19 * 4 + top / 256 % 4)) rd)
  else if top / 4 % 64 = 0x22 then
    some (.addsubi (isOne (top / 512 % 2)) (isOne (top / 256 % 2)) q (if top / 2 % 2 = 1 then imm12 * 4096 else imm12) rn rd)
  else if top / 4 % 64 = 0x25 then
    if q = false ∧ 2 ≤ top % 4 then none else
    match top / 256 % 4 with
    | 0 => some (.movn q (top % 4) imm16 rd)
    | 2 => some (.movz q (top % 4) imm16 rd)
    | 3 => some (.movk q (top % 4) imm16 rd)
    | _ => none
  else if top / 4 % 64 = 0x26 then
    if top / 2 % 2 ≠ top / 1024 ∨ (q = false ∧ (top % 2 = 1 ∨ 32 ≤ x)) then none else
    match top / 256 % 4 with
    | 0 => some (.bfm true q (top % 2 * 32 + rm) x rn rd)
    | 2 => some (.bfm false q (top % 2 * 32 + rm) x rn rd)
    | _ => none
  -- registers
  else if top / 8 % 32 = 0x0a then
    if q = false ∧ 32 ≤ x then none else
    match top / 256 % 4 with
    | 0 => some (.logic .and (isOne (top % 2)) q (shiftOf (top / 2 % 4)) x rm rn rd)
    | 1 => some (.logic .orr (isOne (top % 2)) q (shiftOf (top / 2 % 4)) x rm rn rd)
    | 2 => some (.logic .eor (isOne (top % 2)) q (shiftOf (top / 2 % 4)) x rm rn rd)
    | _ => none
  else if top / 8 % 32 = 0x0b then
    if top % 2 = 0 then
      if (q = false ∧ 32 ≤ x) ∨ top / 2 % 4 = 3 then none else
      some (.addsubs (isOne (top / 512 % 2)) (isOne (top / 256 % 2)) q (shiftOf (top / 2 % 4)) x rm rn rd)
    else
      if top / 2 % 4 ≠ 0 ∨ 4 < x % 8 then none else
      some (.addsube (isOne (top / 512 % 2)) (isOne (top / 256 % 2)) q (x / 8) (x % 8) rm rn rd)
  else if top % 1024 = 0xd8 then some (.dp3 (isOne (x / 32)) q rm (x % 32) rn rd)
  else if top % 1024 = 0xd6 then
    match x with
    | 2 => some (.dp2 .udiv q rm rn rd)
    | 3 => some (.dp2 .sdiv q rm rn rd)
    | 8 => some (.dp2 .lslv q rm rn rd)
    | 9 => some (.dp2 .lsrv q rm rn rd)
    | 10 => some (.dp2 .asrv q rm rn rd)
    | _ => none
  else if top % 1024 = 0xd4 then if x % 4 = 1 then some (.csinc q rm (x / 4) rn rd) else none
  -- memory
  else if top / 64 % 8 = 7 then
    if top / 8 % 4 = 1 then mem1 (top / 512) (top / 32 % 2) (top / 2 % 4) (.uoff imm12) rn rd
    else if top / 8 % 4 = 0 then
      if top % 2 = 0 then
        match x % 4 with
        | 0 => mem1 (top / 512) (top / 32 % 2) (top / 2 % 4) (.off (sgn 9 (rm * 16 + x / 4))) rn rd
        | 1 => mem1 (top / 512) (top / 32 % 2) (top / 2 % 4) (.post (sgn 9 (rm * 16 + x / 4))) rn rd
        | 3 => mem1 (top / 512) (top / 32 % 2) (top / 2 % 4) (.pre (sgn 9 (rm * 16 + x / 4))) rn rd
        | _ => none
      else if x % 4 = 2 ∧ x / 8 % 4 ≥ 2 then
        mem1 (top / 512) (top / 32 % 2) (top / 2 % 4) (.reg rm (x / 8) (isOne (x / 4 % 2))) rn rd
      else none
    else none
  else if top / 64 % 8 = 5 then
    match top / 4 % 8 with
    | 1 => mem2 (top / 512) (top / 32 % 2) (top / 2 % 2) (fun k => .post (k * sgn 7 (top % 2 * 64 + rm * 2 + x / 32))) (x % 32) rn rd
    | 2 => mem2 (top / 512) (top / 32 % 2) (top / 2 % 2) (fun k => .off (k * sgn 7 (top % 2 * 64 + rm * 2 + x / 32))) (x % 32) rn rd
    | 3 => mem2 (top / 512) (top / 32 % 2) (top / 2 % 2) (fun k => .pre (k * sgn 7 (top % 2 * 64 + rm * 2 + x / 32))) (x % 32) rn rd
    | _ => none
  -- floating point
  else if top / 8 % 128 = 0x1e ∧ top % 2 = 1 ∧ top / 4 % 2 = 0 then
    if x = 0 then conv q (isOne (top / 2 % 2)) rm rn rd
    else if q then none else fp (isOne (top / 2 % 2)) rm x rn rd
  else if top / 8 = 0x1f ∧ top / 4 % 2 = 0 then
    some (.f3 (isOne (x / 32) != isOne (top % 2)) (isOne (top % 2)) (isOne (top / 2 % 2)) rm (x % 32) rn rd)
  else none

def decode (w : Nat) : Option Insn :=
  decodeF (w / 2 ^ 21) (w / 2 ^ 16 % 32) (w / 2 ^ 10 % 64) (w / 2 ^ 5 % 32) (w % 32)

/-! ### Executing -/

/-- Register 31 is zero or the stack pointer, depending on the place it stands in. -/
def St.xz (s : St) (r : Nat) : BitVec 64 := if r = 31 then 0 else s.x r
def St.xs (s : St) (r : Nat) : BitVec 64 := if r = 31 then s.sp else s.x r
def St.setx (s : St) (r : Nat) (v : BitVec 64) : St := { s with x := fun k => if k = r then v else s.x k }
def St.setz (s : St) (r : Nat) (v : BitVec 64) : St := if r = 31 then s else s.setx r v
def St.sets (s : St) (r : Nat) (v : BitVec 64) : St := if r = 31 then { s with sp := v } else s.setx r v
def St.fr (s : St) (d : Bool) (r : Nat) : BitVec (wd d) := (s.f r).setWidth (wd d)
def St.setf (s : St) (r : Nat) (v : BitVec 64) : St := { s with f := fun k => if k = r then v else s.f k }

/-- A value of 32 or 64 bits is written with zeros above it. -/
def St.putz {w : Nat} (s : St) (r : Nat) (v : BitVec w) : St := s.setz r (v.setWidth 64)
def St.puts {w : Nat} (s : St) (r : Nat) (v : BitVec w) : St := s.sets r (v.setWidth 64)
def St.putf {w : Nat} (s : St) (r : Nat) (v : BitVec w) : St := s.setf r (v.setWidth 64)
def St.zr (s : St) (q : Bool) (r : Nat) : BitVec (wd q) := (s.xz r).setWidth (wd q)
def St.sr (s : St) (q : Bool) (r : Nat) : BitVec (wd q) := (s.xs r).setWidth (wd q)

/-- The address of an access of `2 ^ size` bytes. -/
def Am.addr (s : St) (size n : Nat) : Am → BitVec 64
  | .uoff k => s.xs n + BitVec.ofNat 64 (k * 2 ^ size)
  | .off o => s.xs n + BitVec.ofInt 64 o
  | .pre o => s.xs n + BitVec.ofInt 64 o
  | .post _ => s.xs n
  | .reg m o scaled => s.xs n + extend o (s.xz m) <<< (if scaled then size else 0)

/-- The base register afterwards: `s` is the state in which the address was made. -/
def Am.back (s : St) (n : Nat) (am : Am) (t : St) : St :=
  match am with
  | .pre o => t.sets n (s.xs n + BitVec.ofInt 64 o)
  | .post o => t.sets n (s.xs n + BitVec.ofInt 64 o)
  | _ => t

def condOf : Nat → Cond
  | 0 => .eq
  | 1 => .ne
  | 2 => .hs
  | 3 => .lo
  | 4 => .mi
  | 5 => .pl
  | 6 => .vs
  | 7 => .vc
  | 8 => .hi
  | 9 => .ls
  | 10 => .ge
  | 11 => .lt
  | 12 => .gt
  | 13 => .le
  | 14 => .al
  | _ => .nv

/-- Copying bits: `imms - immr + 1` bits from position `immr` to the bottom, or `imms + 1` bits from the bottom to position
    `width - immr`; the rest is zero, or above the field the field's top bit. -/
def bfm {w : Nat} (signed : Bool) (immr imms : Nat) (v : BitVec w) : BitVec w :=
  if immr ≤ imms then
    let f := v.toNat / 2 ^ immr % 2 ^ (imms - immr + 1)
    if signed then BitVec.ofInt w (sgn (imms - immr + 1) f) else BitVec.ofNat w f
  else
    let f := v.toNat % 2 ^ (imms + 1)
    if signed then BitVec.ofInt w (sgn (imms + 1) f * 2 ^ (w - immr)) else BitVec.ofNat w (f * 2 ^ (w - immr))

def branch (s : St) (taken : Bool) (off : Int) : St :=
  if taken then { s with pc := s.pc + BitVec.ofInt 64 off } else s.step

def addsub {w : Nat} (sub S : Bool) (s : St) (a b : BitVec w) : St :=
  if S then (if sub then s.subFlags a b else s.addFlags a b) else s

def sum {w : Nat} (sub : Bool) (a b : BitVec w) : BitVec w := if sub then a - b else a + b

def exec (M : Fpu) (i : Insn) (s : St) : St :=
  match i with
  | .movz q hw imm d => (s.putz d (BitVec.ofNat (wd q) (imm * 2 ^ (16 * hw)))).step
  | .movn q hw imm d => (s.putz d (~~~ BitVec.ofNat (wd q) (imm * 2 ^ (16 * hw)))).step
  | .movk q hw imm d =>
    (s.putz d ((s.zr q d &&& ~~~ BitVec.ofNat (wd q) (65535 * 2 ^ (16 * hw))) ||| BitVec.ofNat (wd q) (imm * 2 ^ (16 * hw)))).step
  | .addsubi sub S q imm n d =>
    let a := s.sr q n
    let b := BitVec.ofNat (wd q) imm
    if S then ((addsub sub S s a b).putz d (sum sub a b)).step else (s.puts d (sum sub a b)).step
  | .addsubs sub S q k amt m n d =>
    let a := s.zr q n
    let b := shiftBy k (s.zr q m) amt
    ((addsub sub S s a b).putz d (sum sub a b)).step
  | .addsube sub S q o amt m n d =>
    let a := s.sr q n
    let b := (extend o (s.xz m)).setWidth (wd q) <<< amt
    if S then ((addsub sub S s a b).putz d (sum sub a b)).step else (s.puts d (sum sub a b)).step
  | .logic op inv q k amt m n d =>
    let a := s.zr q n
    let b := shiftBy k (s.zr q m) amt
    let b := if inv then ~~~ b else b
    (s.putz d (match op with | .and => a &&& b | .orr => a ||| b | .eor => a ^^^ b)).step
  | .bfm signed q immr imms n d => (s.putz d (bfm signed immr imms (s.zr q n))).step
  | .dp2 op q m n d =>
    let a := s.zr q n
    let b := s.zr q m
    (s.putz d (match op with
      | .udiv => udiv a b
      | .sdiv => sdiv a b
      | .lslv => a <<< (b.toNat % wd q)
      | .lsrv => a >>> (b.toNat % wd q)
      | .asrv => a.sshiftRight (b.toNat % wd q))).step
  | .dp3 sub q m a n d => (s.putz d (sum sub (s.zr q a) (s.zr q n * s.zr q m))).step
  | .csinc q m c n d => (s.putz d (if (condOf c).holds s then s.zr q n else s.zr q m + 1)).step
  | .adrp imm d => (s.putz d ((s.pc &&& ~~~ 4095#64) + BitVec.ofInt 64 imm)).step
  | .b off => branch s true off
  | .bl off => branch (s.setx 30 (s.pc + 4)) true off
  | .bcond c off => branch s ((condOf c).holds s) off
  | .cb nz q t off => branch s (decide (s.zr q t = 0) != nz) off
  | .br n => { s with pc := s.xz n }
  | .blr n => { (s.setx 30 (s.pc + 4)) with pc := s.xz n }
  | .ret n => { s with pc := s.xz n }
  | .svc imm => { s.step with svc := some imm }
  | .mrs r t => (s.putz t (s.sys r)).step
  | .nop => s.step
  | .ld size am n t => (am.back s n (s.putz t (rd s.mem (am.addr s size n) (2 ^ size)))).step
  | .lds size q am n t => (am.back s n (s.putz t (sext (8 * 2 ^ size) (wd q) (rd s.mem (am.addr s size n) (2 ^ size))))).step
  | .st size am n t => (am.back s n { s with mem := wr s.mem (am.addr s size n) (s.xz t) (2 ^ size) }).step
  | .fld d am n t =>
    let k := if d then 3 else 2
    (am.back s n (s.putf t (rd s.mem (am.addr s k n) (2 ^ k)))).step
  | .fst d am n t =>
    let k := if d then 3 else 2
    (am.back s n { s with mem := wr s.mem (am.addr s k n) (s.f t) (2 ^ k) }).step
  | .ldp q am u n t =>
    let a := am.addr s 0 n
    let k := if q then 8 else 4
    (am.back s n ((s.putz t (rd s.mem a k)).putz u (rd s.mem (a + BitVec.ofNat 64 k) k))).step
  | .stp q am u n t =>
    let a := am.addr s 0 n
    let k := if q then 8 else 4
    (am.back s n { s with mem := wr (wr s.mem a (s.xz t) k) (a + BitVec.ofNat 64 k) (s.xz u) k }).step
  | .fldp d am u n t =>
    let a := am.addr s 0 n
    let k := if d then 8 else 4
    (am.back s n ((s.putf t (rd s.mem a k)).putf u (rd s.mem (a + BitVec.ofNat 64 k) k))).step
  | .fstp d am u n t =>
    let a := am.addr s 0 n
    let k := if d then 8 else 4
    (am.back s n { s with mem := wr (wr s.mem a (s.f t) k) (a + BitVec.ofNat 64 k) (s.f u) k }).step
  | .fmov dbl n d => (s.putf d (s.fr dbl n)).step
  | .fneg dbl n d => (s.putf d (M.neg dbl (s.fr dbl n))).step
  | .fsqrt dbl n d => (s.putf d (M.sqrt dbl (s.fr dbl n))).step
  | .fcvt a b n d => (s.putf d (M.cvt a b (s.fr a n))).step
  | .fcmp dbl m n =>
    let r := M.cmp dbl (s.fr dbl n) (s.fr dbl m)
    (s.flags r.1 r.2.1 r.2.2.1 r.2.2.2).step
  | .fmovi dbl imm d => (s.putf d (M.imm8 dbl imm)).step
  | .f2 op dbl m n d => (s.putf d (M.two op dbl (s.fr dbl n) (s.fr dbl m))).step
  | .f3 negP negA dbl m a n d => (s.putf d (M.fma dbl negP negA (s.fr dbl a) (s.fr dbl n) (s.fr dbl m))).step
  | .ofInt signed q dbl n d => (s.putf d (M.ofInt signed q dbl (s.zr q n))).step
  | .toInt signed q dbl n d => (s.putz d (M.toInt signed q dbl (s.fr dbl n))).step
  | .fmovx q n d => (s.putf d (s.zr q n)).step

/-! ### The assembly language -/

/-- General registers by name; `zr` is the register that is always zero. Whether it is called `x5` or `w5` is told by the
    width `q` that stands beside it: `true` for 64 bits. -/
inductive R
  | x (n : Fin 31)
  | zr
  | sp
deriving DecidableEq, Repr

inductive Alu
  | add | sub | mul | sdiv | udiv | and | orr | eor | eon | lsl | lsr | asr
deriving DecidableEq, Repr

inductive AluI
  | add | sub | lsl | lsr | asr
deriving DecidableEq, Repr

/-- `sxtb`, `sxth`, `sxtw`, `uxtb`, `uxth`, `uxtw`. -/
inductive Ext
  | sb | sh | sw | ub | uh | uw
deriving DecidableEq, Repr

/-- `ldrb`, `ldrh`, `ldr`, `ldrsb`, `ldrsh`. -/
inductive Ld
  | b | h | w | sb | sh
deriving DecidableEq, Repr

/-- `strb`, `strh`, `str`. -/
inductive Sd
  | b | h | w
deriving DecidableEq, Repr

/-- `[b, #o]`, `[b, #o]!`, `[b], #o`, `[b, m]` with the index extended in one of the ways `none`, `sxtw`, `uxtw`, `lsl`, `sxtx`
    (0 to 4), and `[b, :lo12:symbol]`, where the linker puts in the number that is zero here. -/
inductive Addr
  | off (b : R) (o : Int)
  | pre (b : R) (o : Int)
  | post (b : R) (o : Int)
  | idx (b m : R) (e : Nat)
  | sym (b : R)
deriving DecidableEq, Repr

inductive F3
  | madd | msub | nmsub
deriving DecidableEq, Repr

/-- Instructions of the assembly language. Floating point registers are numbers below 32. -/
inductive Req
  | mov (q : Bool) (d a : R)
  | movi (q : Bool) (d : R) (v : Int)
  | movk (q : Bool) (d : R) (v sh : Int)
  | alu (op : Alu) (q : Bool) (d a b : R)
  /-- `add d, a, b, <extend>`: `o` from 0 to 7 the extensions, 8 to 10 the shifts. -/
  | aluExt (sub q : Bool) (d a b : R) (o amt : Int)
  | alui (op : AluI) (q : Bool) (d a : R) (v : Int)
  /-- `add d, a, :lo12:symbol`; the linker puts in the number. -/
  | aluSym (sub q : Bool) (d a : R)
  | cmp (q : Bool) (a b : R)
  | cmn (q : Bool) (a b : R)
  | cmpi (q : Bool) (a : R) (v : Int)
  | cmni (q : Bool) (a : R) (v : Int)
  | ext (k : Ext) (q : Bool) (d a : R)
  | madd (q : Bool) (d a b c : R)
  | msub (q : Bool) (d a b c : R)
  | mvn (q : Bool) (d a : R)
  | ldr (k : Ld) (q : Bool) (t : R) (a : Addr)
  | str (k : Sd) (q : Bool) (t : R) (a : Addr)
  | ldp (q : Bool) (t u : R) (a : Addr)
  | stp (q : Bool) (t u : R) (a : Addr)
  | adrp (d : R)
  | cset (q : Bool) (d : R) (c : Cond)
  /-- Targets are distances in bytes, of a label or a number. -/
  | b (label : Bool) (off : Int)
  | bl (label : Bool) (off : Int)
  | bcc (c : Cond) (label : Bool) (off : Int)
  | cbz (q : Bool) (t : R) (label : Bool) (off : Int)
  | cbnz (q : Bool) (t : R) (label : Bool) (off : Int)
  | br (a : R)
  | blr (a : R)
  | ret
  | svc (v : Int)
  | mrs (d : R) (v : Int)
  | nop
  | fldr (dbl : Bool) (t : Fin 32) (a : Addr)
  | fstr (dbl : Bool) (t : Fin 32) (a : Addr)
  | fldp (dbl : Bool) (t u : Fin 32) (a : Addr)
  | fstp (dbl : Bool) (t u : Fin 32) (a : Addr)
  | fmov (dbl : Bool) (d a : Fin 32)
  | fmovx (q : Bool) (d : Fin 32) (a : R)
  | fmovi (dbl : Bool) (d : Fin 32) (v : Int)
  | farith (op : F2) (dbl : Bool) (d a b : Fin 32)
  | fma (op : F3) (dbl : Bool) (d a b c : Fin 32)
  | fcmp (dbl : Bool) (a b : Fin 32)
  | fneg (dbl : Bool) (d a : Fin 32)
  | fsqrt (dbl : Bool) (d a : Fin 32)
  | fcvt (to : Bool) (d a : Fin 32)
  | cvtf (signed q dbl : Bool) (d : Fin 32) (a : R)
  | cvtz (signed q dbl : Bool) (d : R) (a : Fin 32)
deriving DecidableEq, Repr

def R.get (s : St) : R → BitVec 64
  | .x n => s.x n
  | .zr => 0
  | .sp => s.sp

def R.set (s : St) (r : R) (v : BitVec 64) : St :=
  match r with
  | .x n => { s with x := fun k => if k = (n : Nat) then v else s.x k }
  | .zr => s
  | .sp => { s with sp := v }

/-- The register as 32 or 64 bits. -/
def R.val (s : St) (q : Bool) (r : R) : BitVec (wd q) := (r.get s).setWidth (wd q)
def R.put {w : Nat} (s : St) (r : R) (v : BitVec w) : St := r.set s (v.setWidth 64)

def aluVal (op : Alu) (q : Bool) (a b : BitVec (wd q)) : BitVec (wd q) :=
  match op with
  | .add => a + b
  | .sub => a - b
  | .mul => a * b
  | .sdiv => sdiv a b
  | .udiv => udiv a b
  | .and => a &&& b
  | .orr => a ||| b
  | .eor => a ^^^ b
  | .eon => a ^^^ ~~~ b
  | .lsl => a <<< (b.toNat % wd q)
  | .lsr => a >>> (b.toNat % wd q)
  | .asr => a.sshiftRight (b.toNat % wd q)

def aluIVal (op : AluI) (q : Bool) (a : BitVec (wd q)) (v : Int) : BitVec (wd q) :=
  match op with
  | .add => a + BitVec.ofInt (wd q) v
  | .sub => a - BitVec.ofInt (wd q) v
  | .lsl => a <<< v.toNat
  | .lsr => a >>> v.toNat
  | .asr => a.sshiftRight v.toNat

/-- The second operand of `add d, a, b, <extend> #amt`. -/
def extVal (q : Bool) (o amt : Int) (v : BitVec 64) : BitVec (wd q) :=
  if o < 8 then (extend o.toNat v).setWidth (wd q) <<< amt.toNat
  else if o = 8 then v.setWidth (wd q) <<< amt.toNat
  else if o = 9 then v.setWidth (wd q) >>> amt.toNat
  else (v.setWidth (wd q)).sshiftRight amt.toNat

def Ext.val (q : Bool) (v : BitVec 64) : Ext → BitVec (wd q)
  | .sb => sext 8 (wd q) v
  | .sh => sext 16 (wd q) v
  | .sw => sext 32 (wd q) v
  | .ub => (v.setWidth 8).setWidth (wd q)
  | .uh => (v.setWidth 16).setWidth (wd q)
  | .uw => (v.setWidth 32).setWidth (wd q)

def Addr.base : Addr → R
  | .off b _ | .pre b _ | .post b _ | .idx b _ _ | .sym b => b

/-- Where the access is. -/
def Addr.at (s : St) : Addr → BitVec 64
  | .off b o | .pre b o => b.get s + BitVec.ofInt 64 o
  | .post b _ | .sym b => b.get s
  | .idx b m e => b.get s + (if e = 1 then sext 32 64 (m.get s) else if e = 2 then ((m.get s).setWidth 32).setWidth 64 else m.get s)

/-- The base register afterwards. -/
def Addr.then (s : St) (a : Addr) (t : St) : St :=
  match a with
  | .pre b o | .post b o => b.set t (b.get s + BitVec.ofInt 64 o)
  | _ => t

/-- The number of bytes loaded. -/
def Ld.bytes (q : Bool) : Ld → Nat
  | .b | .sb => 1
  | .h | .sh => 2
  | .w => if q then 8 else 4

/-- What becomes of the loaded bytes. -/
def Ld.val (q : Bool) (v : BitVec 64) : Ld → BitVec (wd q)
  | .b | .h | .w => v.setWidth (wd q)
  | .sb => sext 8 (wd q) v
  | .sh => sext 16 (wd q) v

def Sd.bytes (q : Bool) : Sd → Nat
  | .b => 1
  | .h => 2
  | .w => if q then 8 else 4

def jump (s : St) (taken : Bool) (off : Int) : St := { s with pc := if taken then s.pc + BitVec.ofInt 64 off else s.pc + 4 }

/-- What an instruction of the assembly language does. -/
def effect (M : Fpu) (r : Req) (s : St) : St :=
  match r with
  | .mov q d a => (d.put s (a.val s q)).step
  | .movi q d v => (d.put s (BitVec.ofInt (wd q) v)).step
  | .movk q d v sh =>
    (d.put s ((d.val s q &&& ~~~ (65535#(wd q) <<< sh.toNat)) ||| (BitVec.ofInt (wd q) v <<< sh.toNat))).step
  | .alu op q d a b => (d.put s (aluVal op q (a.val s q) (b.val s q))).step
  | .aluExt sub q d a b o amt =>
    (d.put s (if sub then a.val s q - extVal q o amt (b.get s) else a.val s q + extVal q o amt (b.get s))).step
  | .alui op q d a v => (d.put s (aluIVal op q (a.val s q) v)).step
  | .aluSym _ q d a => (d.put s (a.val s q)).step
  | .cmp q a b => (s.subFlags (a.val s q) (b.val s q)).step
  | .cmn q a b => (s.addFlags (a.val s q) (b.val s q)).step
  | .cmpi q a v => (s.subFlags (a.val s q) (BitVec.ofInt (wd q) v)).step
  | .cmni q a v => (s.addFlags (a.val s q) (BitVec.ofInt (wd q) v)).step
  | .ext k q d a => (d.put s (k.val q (a.get s))).step
  | .madd q d a b c => (d.put s (c.val s q + a.val s q * b.val s q)).step
  | .msub q d a b c => (d.put s (c.val s q - a.val s q * b.val s q)).step
  | .mvn q d a => (d.put s (~~~ a.val s q)).step
  | .ldr k q t a => (a.then s (t.put s (k.val q (rd s.mem (a.at s) (k.bytes q))))).step
  | .str k q t a => (a.then s { s with mem := wr s.mem (a.at s) (t.get s) (k.bytes q) }).step
  | .ldp q t u a =>
    let k := if q then 8 else 4
    (a.then s (u.put (t.put s (rd s.mem (a.at s) k)) (rd s.mem (a.at s + BitVec.ofNat 64 k) k))).step
  | .stp q t u a =>
    let k := if q then 8 else 4
    (a.then s { s with mem := wr (wr s.mem (a.at s) (t.get s) k) (a.at s + BitVec.ofNat 64 k) (u.get s) k }).step
  | .adrp d => (d.put s (s.pc &&& ~~~ 4095#64)).step
  | .cset q d c => (d.put s (if c.holds s then 1#(wd q) else 0#(wd q))).step
  | .b _ off => jump s true off
  | .bl _ off => jump (R.put s (.x 30) (s.pc + 4)) true off
  | .bcc c _ off => jump s (c.holds s) off
  | .cbz q t _ off => jump s (decide (t.val s q = 0)) off
  | .cbnz q t _ off => jump s (decide (t.val s q ≠ 0)) off
  | .br a => { s with pc := a.get s }
  | .blr a => { (R.put s (.x 30) (s.pc + 4)) with pc := a.get s }
  | .ret => { s with pc := s.x 30 }
  | .svc v => { s.step with svc := some v.toNat }
  | .mrs d v => (d.put s (s.sys v.toNat)).step
  | .nop => s.step
  | .fldr dbl t a => (a.then s (s.putf t (rd s.mem (a.at s) (if dbl then 8 else 4)))).step
  | .fstr dbl t a => (a.then s { s with mem := wr s.mem (a.at s) (s.f t) (if dbl then 8 else 4) }).step
  | .fldp dbl t u a =>
    let k := if dbl then 8 else 4
    (a.then s ((s.putf t (rd s.mem (a.at s) k)).putf u (rd s.mem (a.at s + BitVec.ofNat 64 k) k))).step
  | .fstp dbl t u a =>
    let k := if dbl then 8 else 4
    (a.then s { s with mem := wr (wr s.mem (a.at s) (s.f t) k) (a.at s + BitVec.ofNat 64 k) (s.f u) k }).step
  | .fmov dbl d a => (s.putf d (s.fr dbl a)).step
  | .fmovx q d a => (s.putf d (a.val s q)).step
  | .fmovi dbl d v => (s.putf d (M.imm8 dbl v.toNat)).step
  | .farith op dbl d a b => (s.putf d (M.two op dbl (s.fr dbl a) (s.fr dbl b))).step
  | .fma op dbl d a b c =>
    (s.putf d (match op with
      | .madd => M.fma dbl false false (s.fr dbl c) (s.fr dbl a) (s.fr dbl b)
      | .msub => M.fma dbl true false (s.fr dbl c) (s.fr dbl a) (s.fr dbl b)
      | .nmsub => M.fma dbl false true (s.fr dbl c) (s.fr dbl a) (s.fr dbl b))).step
  | .fcmp dbl a b =>
    let r := M.cmp dbl (s.fr dbl a) (s.fr dbl b)
    (s.flags r.1 r.2.1 r.2.2.1 r.2.2.2).step
  | .fneg dbl d a => (s.putf d (M.neg dbl (s.fr dbl a))).step
  | .fsqrt dbl d a => (s.putf d (M.sqrt dbl (s.fr dbl a))).step
  | .fcvt to d a => (s.putf d (M.cvt (!to) to (s.fr (!to) a))).step
  | .cvtf signed q dbl d a => (s.putf d (M.ofInt signed q dbl (a.val s q))).step
  | .cvtz signed q dbl d a => (d.put s (M.toInt signed q dbl (s.fr dbl a))).step

/-! ### Which instructions there are -/

def R.notSp (r : R) : Prop := r ≠ .sp
def R.notZr (r : R) : Prop := r ≠ .zr

/-- The stack pointer has 64 bits only. -/
def R.spOk (q : Bool) (r : R) : Prop := r = .sp → q = true

/-- An address with an offset that fits: `size` is the number of bytes; the base is written back only if it is not the register
    `t` that is moved. -/
def Addr.legal (size : Nat) (t : R) : Addr → Prop
  | .off b o => b ≠ .zr ∧ ((0 ≤ o ∧ o % size = 0 ∧ o < 4096 * size) ∨ (-256 ≤ o ∧ o < 256))
  | .pre b o | .post b o => b ≠ .zr ∧ -256 ≤ o ∧ o < 256 ∧ (b = .sp ∨ b ≠ t)
  | .idx b m e => b ≠ .zr ∧ m ≠ .sp ∧ e ≤ 4
  | .sym b => b ≠ .zr

/-- The same for two registers: multiples of the size, from -64 to 63 times. -/
def Addr.legal2 (size : Nat) (t u : R) : Addr → Prop
  | .off b o => b ≠ .zr ∧ o % size = 0 ∧ -64 * (size : Int) ≤ o ∧ o < 64 * size
  | .pre b o | .post b o => b ≠ .zr ∧ o % size = 0 ∧ -64 * (size : Int) ≤ o ∧ o < 64 * size ∧ (b = .sp ∨ (b ≠ t ∧ b ≠ u))
  | _ => False

/-- A distance that `n` bits can hold, counted in instructions. -/
def near (n : Nat) (off : Int) : Prop := off % 4 = 0 ∧ -2 ^ (n + 1) ≤ off ∧ off < 2 ^ (n + 1)

def Legal : Req → Prop
  | .mov q d a => d.spOk q ∧ a.spOk q ∧ (d = .sp → a ≠ .zr) ∧ (a = .sp → d ≠ .zr)
  | .movi q d v => d ≠ .sp ∧ (-2 ^ (wd q - 1) ≤ v ∧ v < 2 ^ (wd q))
  | .movk q d v sh => d ≠ .sp ∧ 0 ≤ v ∧ v < 65536 ∧ 0 ≤ sh ∧ sh % 16 = 0 ∧ sh < wd q
  | .alu op q d a b => b ≠ .sp ∧ if op = .add ∨ op = .sub then d.spOk q ∧ a.spOk q ∧ (d = .sp → a ≠ .zr) ∧ (a = .sp → d ≠ .zr) else
      d ≠ .sp ∧ a ≠ .sp
  | .aluExt _ q d a b o amt => b ≠ .sp ∧ 0 ≤ o ∧ o ≤ 10 ∧ 0 ≤ amt ∧
      if o < 8 then amt ≤ 4 ∧ d ≠ .zr ∧ a ≠ .zr ∧ d.spOk q ∧ a.spOk q else amt < wd q ∧ d ≠ .sp ∧ a ≠ .sp
  | .alui op q d a v => if op = .add ∨ op = .sub then d ≠ .zr ∧ a ≠ .zr ∧ d.spOk q ∧ a.spOk q ∧ -4095 ≤ v ∧ v ≤ 4095 else
      d ≠ .sp ∧ a ≠ .sp ∧ 0 ≤ v ∧ v < wd q
  | .aluSym _ q d a => d ≠ .zr ∧ a ≠ .zr ∧ d.spOk q ∧ a.spOk q
  | .cmp q a b | .cmn q a b => a.spOk q ∧ b ≠ .sp
  | .cmpi q a v | .cmni q a v => a ≠ .zr ∧ a.spOk q ∧ 0 ≤ v ∧ v ≤ 4095
  | .ext k q d a => d ≠ .sp ∧ a ≠ .sp ∧ (k = .sw ∨ k = .uw → q = true)
  | .madd _ d a b c | .msub _ d a b c => d ≠ .sp ∧ a ≠ .sp ∧ b ≠ .sp ∧ c ≠ .sp
  | .mvn _ d a => d ≠ .sp ∧ a ≠ .sp
  | .ldr k q t a => t ≠ .sp ∧ a.legal (k.bytes q) t
  | .str k q t a => t ≠ .sp ∧ a.legal (k.bytes q) t ∧ (k ≠ .w → q = false)
  | .ldp q t u a => t ≠ .sp ∧ u ≠ .sp ∧ t ≠ u ∧ a.legal2 (if q then 8 else 4) t u
  | .stp q t u a => t ≠ .sp ∧ u ≠ .sp ∧ a.legal2 (if q then 8 else 4) t u
  | .adrp d => d ≠ .sp
  | .cset _ d c => d ≠ .sp ∧ c ≠ .al ∧ c ≠ .nv
  | .b _ off | .bl _ off => near 26 off
  | .bcc _ _ off => near 19 off
  | .cbz _ t _ off | .cbnz _ t _ off => t ≠ .sp ∧ near 19 off
  | .br a | .blr a => a ≠ .sp
  | .svc v => 0 ≤ v ∧ v < 65536
  | .mrs d v => d ≠ .sp ∧ 0 ≤ v ∧ v < 2 ^ 15
  | .fldr dbl _ a | .fstr dbl _ a => a.legal (if dbl then 8 else 4) .zr
  | .fldp dbl t u a => t ≠ u ∧ a.legal2 (if dbl then 8 else 4) .zr .zr
  | .fstp dbl _ _ a => a.legal2 (if dbl then 8 else 4) .zr .zr
  | .fmovx _ _ a => a ≠ .sp
  | .fmovi _ _ v => 0 ≤ v ∧ v < 256
  | .cvtf _ _ _ _ a => a ≠ .sp
  | .cvtz _ _ _ d _ => d ≠ .sp
  | .ret | .nop | .fmov .. | .farith .. | .fma .. | .fcmp .. | .fneg .. | .fsqrt .. | .fcvt .. => True

end Nature.Arm64
