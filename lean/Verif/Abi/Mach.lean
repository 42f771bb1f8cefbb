import Verif.TypeLayout.Lemmas
/-
What the instructions emitted for a call do: registers, memory, and the operations of the intermediate language that the
lowering of calls emits (/repo/src/lower/*_abi.c).  A byte is either plain data or one byte of an address; addresses are
integers.  Variables of the intermediate language are places of their own: that the register allocator gives each of them its
own register or slot, and that a temporary with a required register ends up in that register, is what `Verif/ParMove` and the
modules on the allocator are about; here a move to such a temporary is a move to its register.
-/
namespace Nature.Abi
open Nature.TypeLayout (alignUp)

/-! ### Types, as the lowering sees them -/

/-- utils/type.h:71-127: what is held directly in a register.  Pointers, booleans and enumerations are integers of their size. -/
inductive Scal | i8 | i16 | i32 | i64 | f32 | f64
deriving DecidableEq, Repr

def Scal.size : Scal → Nat
  | .i8 => 1 | .i16 => 2 | .i32 => 4 | .i64 => 8 | .f32 => 4 | .f64 => 8

/-- `is_float(t.map_imm_kind)`. -/
def Scal.isF : Scal → Bool
  | .f32 => true | .f64 => true | _ => false

mutual
/-- utils/type.h:791-1000.  `agg` is every type for which `is_abi_struct_like` holds, given by its `abi_struct` list
(a union or an enumeration with values is the tag and its largest element: type.h:866-887, 913-931); `arr` is `TYPE_ARR`. -/
inductive Ty
  | scal (s : Scal)
  | agg (es : Tys)
  | arr (n : Nat) (e : Ty)
inductive Tys
  | nil
  | cons (t : Ty) (rest : Tys)
end

def Tys.toList : Tys → List Ty
  | .nil => []
  | .cons t rest => t :: rest.toList

mutual
/-- utils/type.c:232-276 `type_alignof`: `t.align`. -/
def alignOf : Ty → Nat
  | .scal s => s.size
  | .agg es => maxAlign es
  | .arr _ e => alignOf e
/-- utils/type.c:36-46, 91-100. -/
def maxAlign : Tys → Nat
  | .nil => 0
  | .cons t rest => max (alignOf t) (maxAlign rest)
end

mutual
/-- utils/type.c:48-89, 102-120, 232-: `t.storage_size`. -/
def sizeOf : Ty → Nat
  | .scal s => s.size
  | .agg es => alignUp (endFrom es 0) (maxAlign es)
  | .arr n e => n * sizeOf e
/-- utils/type.c:60-75, 102-113: where the fields laid out from `off` end. -/
def endFrom : Tys → Nat → Nat
  | .nil, off => off
  | .cons t rest, off => endFrom rest (alignUp off (alignOf t) + sizeOf t)
end

/-- `storage_kind == STORAGE_KIND_IND`: the variable holds the address of the value. -/
def Ty.ind : Ty → Bool
  | .scal _ => false
  | _ => true

/-! ### Machine -/

/-- One byte: data, or byte `k` of the address `a`. -/
inductive Cell
  | dat (b : UInt8)
  | ptr (a : Int) (k : Nat)
deriving DecidableEq, Repr

/-- Variables of the intermediate language: the arguments at the call, temporaries of the lowering (numbered by the argument
they belong to), the parameters in the called function, the result at the call, the returned operand, and
`c->return_big_operand`. -/
inductive V
  | actual (i : Nat) | work (i j : Nat) | formal (i : Nat) | res | ret | big
deriving DecidableEq, Repr

/-- A byte of the machine. -/
inductive CL
  | gp (r k : Nat) | fp (r k : Nat) | var (v : V) (k : Nat) | mem (a : Int)
deriving DecidableEq, Repr

abbrev State := CL → Cell

/-- A place of several bytes. -/
inductive Loc
  | gp (r : Nat) | fp (r : Nat) | var (v : V) | mem (a : Int)
deriving DecidableEq, Repr

def Loc.at : Loc → Nat → CL
  | .gp r, k => .gp r k
  | .fp r, k => .fp r k
  | .var v, k => .var v k
  | .mem a, k => .mem (a + k)

def Loc.idx : Loc → CL → Option Nat
  | .gp r, .gp r' k => if r = r' then some k else none
  | .fp r, .fp r' k => if r = r' then some k else none
  | .var v, .var v' k => if v = v' then some k else none
  | .mem a, .mem b => if a ≤ b then some (b - a).toNat else none
  | _, _ => none

/-- Copy `n` bytes.  The bytes of a register beyond the first `n` keep what they held: nothing reads them. -/
def copy (s : State) (d l : Loc) (n : Nat) : State := fun c =>
  match d.idx c with
  | some k => if k < n then s (l.at k) else s c
  | none => s c

/-- Store an address. -/
def putPtr (s : State) (d : Loc) (a : Int) : State := fun c =>
  match d.idx c with
  | some k => if k < 8 then .ptr a k else s c
  | none => s c

/-- The address held at a place, if the eight bytes there are an address. -/
def getPtr (s : State) (l : Loc) : Option Int :=
  match s (l.at 0) with
  | .ptr a _ => if (List.range 8).all (fun k => decide (s (l.at k) = .ptr a k)) then some a else none
  | .dat _ => none

/-- Operands: registers, variables, `[v + off]` (src/lir.h `indirect_addr_operand` on a variable), `[sp + off]` (on the stack
pointer), and `lir_stack_operand`, relative to the frame pointer (src/native/amd64.c:131-134). -/
inductive Opd
  | gp (r : Nat) | fp (r : Nat) | var (v : V) | ind (v : V) (off : Nat) | spo (off : Nat) | slot (off : Int)
deriving DecidableEq, Repr

/-- Stack pointer and frame pointer of the function the operations are in. -/
structure Env where
  sp : Int
  fp : Int

def Opd.loc (e : Env) (s : State) : Opd → Option Loc
  | .gp r => some (.gp r)
  | .fp r => some (.fp r)
  | .var v => some (.var v)
  | .ind v off => (getPtr s (.var v)).map fun a => .mem (a + off)
  | .spo off => some (.mem (e.sp + off))
  | .slot off => some (.mem (e.fp + off))

/-- `lir_op_move` of `n` bytes and `lir_op_lea`. -/
inductive Op
  | mov (d x : Opd) (n : Nat)
  | lea (d x : Opd)
deriving DecidableEq, Repr

/-- One operation; `none` when an operand that has to be an address is not. -/
def step (e : Env) (s : State) : Op → Option State
  | .mov d x n => do
    let ld ← d.loc e s
    let lx ← x.loc e s
    some (copy s ld lx n)
  | .lea d x => do
    let ld ← d.loc e s
    match ← x.loc e s with
    | .mem a => some (putPtr s ld a)
    | _ => none

def exec (e : Env) : List Op → State → Option State
  | [], s => some s
  | o :: os, s => do exec e os (← step e s o)

/-! ### Block copy -/

/-- src/lir.c:91-103. -/
def item (rem : Nat) : Nat := if 8 ≤ rem then 8 else if 4 ≤ rem then 4 else if 2 ≤ rem then 2 else 1

theorem item_pos (rem : Nat) : 0 < item rem := by unfold item; split; omega; split; omega; split <;> omega
theorem item_le {rem : Nat} (h : rem ≠ 0) : item rem ≤ rem := by unfold item; split; omega; split; omega; split <;> omega

/-- src/lir.c:85-116, the loop: the offsets and sizes of the pieces copied. -/
def chunks (rem off : Nat) : List (Nat × Nat) :=
  if h : rem = 0 then [] else
    let it := item rem
    let cnt := rem / it
    (List.range cnt).map (fun i => (off + i * it, it)) ++ chunks (rem - cnt * it) (off + cnt * it)
termination_by rem
decreasing_by
  have h1 : 1 ≤ rem / item rem := (Nat.le_div_iff_mul_le (item_pos rem)).2 (by have := item_le h; omega)
  have h2 := item_pos rem
  have : 1 ≤ rem / item rem * item rem := Nat.mul_pos h1 h2
  omega

/-- src/lir.c:67-119 `lir_memory_mov` on two variables holding addresses (lines 73-83 only move other operands into such
variables); the temporaries are `w i off`. -/
def memMov (i : Nat) (size : Nat) (d x : V) : List Op :=
  (chunks size 0).flatMap fun c =>
    [.mov (.var (.work i (c.1 + 2))) (.ind x c.1) c.2, .mov (.ind d c.1) (.var (.work i (c.1 + 2))) c.2]

/-- src/lir.h:900-935 `lir_stack_alloc`: the new `c->stack_offset`. -/
def allocOff (so : Nat) (t : Ty) : Nat := alignUp (so + (if sizeOf t = 0 then 1 else sizeOf t)) 8

/-- src/lir.h:900-935 `lir_stack_alloc`, the operation: the variable gets the address of the allocated bytes. -/
def allocOp (so : Nat) (t : Ty) (v : V) : Op := .lea (.var v) (.slot (-(allocOff so t : Int)))

end Nature.Abi
