import Verif.Table.Model
/-
String and floating point constants: src/lower/lower.h, src/build/build.c, src/binary/elf/linker.c,
src/binary/encoding/arm64/fmov_imm8.h.
-/
namespace Nature.Consts
open Nature.Table (Key hashString)

abbrev Bytes := List UInt8

/-- src/lir.h:216-229 (`lir_imm_t`): a constant operand that is a string or a floating point number, with its bits.  Other
constants are part of the instructions and are not modelled here. -/
inductive Const where
  | str (s : Bytes)
  | f64 (bits : BitVec 64)
  | f32 (bits : BitVec 32)
deriving DecidableEq, Repr

/-- The bytes of a number in memory, the lowest first. -/
def le : Nat → Nat → Bytes
  | 0, _ => []
  | n + 1, x => UInt8.ofNat x :: le n (x / 256)

/-- The digits of a number in decimal. -/
def digits (n : Nat) : Bytes :=
  if n < 10 then [UInt8.ofNat (48 + n)] else digits (n / 10) ++ [UInt8.ofNat (48 + n % 10)]
decreasing_by omega

/-- utils/helper.h:355-366 (`itoa`). -/
def itoa (i : Int) : Bytes := if i < 0 then 45 :: digits i.natAbs else digits i.natAbs

/-- What C functions on strings see: up to the first zero. -/
def cstr (s : Bytes) : Bytes := s.takeWhile (· ≠ 0)

/-- The `int_value` of the union in `lir_imm_t`; the memory of a new constant is zero, so a number of 32 bits leaves the upper
half zero. -/
def intValue : Const → Int
  | .f64 b => b.toInt
  | .f32 b => b.toNat
  | .str _ => 0

/-- src/lower/lower.h:10-15: the name under which a constant is kept. -/
def key (c : Const) : Key :=
  match c with
  | .str s => [115, 58] ++ cstr s
  | c => [102, 58] ++ itoa (intValue c)

/-- src/types.h (`asm_global_symbol_t`): a symbol in the data section; its name is left out. -/
structure Sym where
  value : Bytes
  align : Nat
deriving DecidableEq, Repr

/-- src/lower/lower.h:24-36: the symbol for a constant; a string is followed by a zero. -/
def symOf : Const → Sym
  | .str s => ⟨s ++ [0], 1⟩
  | .f64 b => ⟨le 8 b.toNat, 8⟩
  | .f32 b => ⟨le 4 b.toNat, 4⟩

/-- What the code for a constant does: it takes the bytes `width` at the symbol with the number `sym`.  Of a string it takes the
address, and its length is in the string value (src/linear.c:425-447). -/
structure Use where
  sym : Nat
  width : Nat
deriving DecidableEq, Repr

/-- The number of bytes taken of a constant of this kind: src/lower/lower.h:68-77, src/linear.c:441. -/
def width : Const → Nat
  | .str s => s.length
  | .f64 _ => 8
  | .f32 _ => 4

/-- The module while its functions are lowered: `module->global_symbol_table`, with the number of the symbol, and the symbols
of its constants in the order in which they are made.  (src/lower/lower.h:42 puts them in the function's list, and
src/build/build.c:1332 joins the lists; the functions are in the same order.) -/
structure St where
  table : Nature.Table.T Nat
  syms : List Sym

/-- src/lower/lower.h:17-44: the symbol for a constant, found or made. -/
def symbol (st : St) (c : Const) : Option (St × Nat) := do
  match ← Nature.Table.get hashString st.table (key c) with
  | some i => some (st, i)
  | none => do
    let t ← Nature.Table.set hashString st.table (key c) st.syms.length
    some (⟨t, st.syms ++ [symOf c]⟩, st.syms.length)

/-- src/lower/lower.h:57-81: a floating point number is loaded into a variable of the function once; for the same name the
variable is used again.  `loc` is `local_imm_table` of the function. -/
def localVar (loc : Nature.Table.T Use) (k : Key) (u : Use) : Option (Nature.Table.T Use × Use) := do
  match ← Nature.Table.get hashString loc k with
  | some u => some (loc, u)
  | none => do
    let loc ← Nature.Table.set hashString loc k u
    some (loc, u)

/-- src/lower/lower.h:4-96 (`lower_imm_symbol`): one constant operand.  Not modelled: how the variable of a floating point number
is kept in a register, and src/lower/arm64.c:62-92 (see `fmovImm8`). -/
def lowerConst (st : St) (loc : Nature.Table.T Use) (c : Const) : Option (St × Nature.Table.T Use × Use) := do
  let (st, i) ← symbol st c
  match c with
  | .str _ => some (st, loc, ⟨i, width c⟩)
  | _ => do
    let (loc, u) ← localVar loc (key c) ⟨i, width c⟩
    some (st, loc, u)

/-- The constants of a function. -/
def lowerFn : List Const → St → Nature.Table.T Use → Option (St × List Use)
  | [], st, _ => some (st, [])
  | c :: cs, st, loc => do
    let (st, loc, u) ← lowerConst st loc c
    let (st, us) ← lowerFn cs st loc
    some (st, u :: us)

/-- src/build/build.c:1660-1697: the functions of a module, one after the other; src/lir.c:19: `local_imm_table` is new for
each. -/
def lowerFns : List (List Const) → St → Option (St × List (List Use))
  | [], st => some (st, [])
  | f :: fs, st => do
    let (st, us) ← lowerFn f st Nature.Table.new
    let (st, uss) ← lowerFns fs st
    some (st, us :: uss)

/-- src/binary/elf/linker.c:727.  An alignment is a power of two, for which `& -align` is rounding up to a multiple. -/
def alignUp (n a : Nat) : Nat := (n + a - 1) / a * a

/-- src/binary/elf/linker.c:725-738, 862-875 (`elf_put_data_aligned`): a symbol is put at the end of the data section; the
result has its offset.  Alignment 0 counts as 1. -/
def put (data : Bytes) (s : Sym) : Bytes × Nat :=
  let off := alignUp data.length (if s.align = 0 then 1 else s.align)
  (data ++ List.replicate (off - data.length) 0 ++ s.value, off)

/-- src/build/build.c:510-527 (`elf_assembler_module`): the data section and the offsets of all symbols. -/
def place : List Sym → Bytes → Bytes × List Nat
  | [], data => (data, [])
  | s :: rest, data =>
    let r := put data s
    let q := place rest r.1
    (q.1, r.2 :: q.2)

/-- src/build/build.c:1304-1332, 510-527: the data section of a module with global variables (with their initial bytes) and
functions; the offsets of the symbols, first those of the variables; and what is done for every constant. -/
def compile (globals : List Sym) (fns : List (List Const)) : Option (Bytes × List Nat × List (List Use)) := do
  let (st, uss) ← lowerFns fns ⟨Nature.Table.new, []⟩
  let (data, offs) := place (globals ++ st.syms) []
  some (data, offs, uss)

/-- The bytes the program gets for a constant. -/
def taken (globals : List Sym) (data : Bytes) (offs : List Nat) (u : Use) : Bytes :=
  (data.drop (offs.getD (globals.length + u.sym) 0)).take u.width

/-! ### arm64: floating point numbers in the instruction -/

/-- src/binary/encoding/arm64/fmov_imm8.h:13-72 (`arm64_fmov_double_to_imm8`); 255: there is none. -/
def fmovImm8 (b : BitVec 64) : Nat :=
  let bits := b.toNat
  let sign := bits / 2 ^ 63 % 2
  let exp := bits / 2 ^ 52 % 2 ^ 11
  let frac := bits % 2 ^ 52
  if exp = 0 ∨ exp = 2047 then 255
  else if frac % 2 ^ 48 ≠ 0 then 255
  else
    let bit10 := exp / 2 ^ 10 % 2
    let bits92 := exp / 4 % 256
    let bits10 := exp % 4
    if bits92 ≠ 0 ∧ bits92 ≠ 255 then 255
    else
      let bit6 := if bits92 = 255 then 1 else 0
      if bit10 ≠ 1 - bit6 then 255
      else sign * 128 + bit6 * 64 + bits10 * 16 + frac / 2 ^ 48 % 16

end Nature.Consts
