import Verif.Abi.Mach
/-
Passing arguments and results on riscv64 (/repo/src/lower/riscv64_abi.c).

Registers are numbered from a0 and fa0.  Not modelled: the function operand (moved to t5), the record of used registers, the
moves through a temporary with a required register (a move to the register, see `Mach.lean`), `c->call_stack_max_offset` (see
`argBytes`).  The variable that receives the result is `actual n` and `c->return_big_operand` is `formal n`, where `n` is the
number of arguments.
-/
namespace Nature.Abi.Rv
open Nature.TypeLayout (alignUp)

def Ty.isAgg : Ty → Bool
  | .agg _ => true
  | _ => false

/-- One place for a value or a part of it: whether a floating point register is wanted (`rc[i] == TYPE_FLOAT`), the kind, and the
offset in the value (riscv64_abi.c:61-62). -/
structure Ent where
  fl : Bool
  kind : Scal
  off : Nat
deriving DecidableEq, Repr

/-- `rc` and `field_offset`: `neg` is `rc[0] < 0`; `ents` are the entries from 1 on. -/
structure RC where
  neg : Bool
  ents : List Ent
deriving DecidableEq, Repr

/-- `rc[1] == TYPE_FLOAT`. -/
def RC.fl1 (r : RC) : Bool := match r.ents with | e :: _ => e.fl | [] => false

/-- utils/type.h:987-1011 `type_map_imm_kind`: the address if the value is not held directly. -/
def immKind : Ty → Scal
  | .scal s => s
  | _ => .i64

mutual
/-- riscv64_abi.c:10-66 `reg_pass_rec`.  `none`: line 49 with `rc[0] == -1` writes `rc[0]` and then `field_offset[12]`, outside
the array. -/
def rec : Ty → RC → (offset : Nat) → Option RC
  | .scal s, r, offset =>
    if r.neg ∨ r.ents.length = 2 then some { r with neg := true }
    else if r.ents.length = 0 ∨ r.fl1 = true ∨ s.isF = true then some { r with ents := r.ents ++ [⟨s.isF, s, offset⟩] }
    else some { r with neg := true }
  | .agg es, r, offset => recAll es r offset
  | .arr n e, r, offset =>
    if 2 < n then some { r with neg := true }
    else do
      let r ← rec e r offset
      if r.neg = false ∧ (2 < r.ents.length ∨ (r.ents.length = 2 ∧ 1 < n)) then some { r with neg := true }
      else if n = 2 ∧ (r.neg = true ∨ r.ents.length ≠ 0) ∧ r.fl1 = true then
        if r.neg then none
        else some { r with ents := r.ents ++ [⟨true, immKind e, offset + sizeOf e % 256⟩] }
      else if n = 2 then some { r with neg := true }
      else some r
/-- riscv64_abi.c:16-29, the loop over the elements. -/
def recAll : Tys → RC → (offset : Nat) → Option RC
  | .nil, r, _ => some r
  | .cons t rest, r, offset => do
    let offset := alignUp offset (alignOf t)
    let r ← rec t r offset
    if r.neg then some r
    else recAll rest r (offset + sizeOf t % 65536)
end

/-- riscv64_abi.c:82-92: the kinds for a value of `size` bytes in general registers. -/
def intKind (size : Nat) : Scal := if size ≤ 1 then .i8 else if size ≤ 2 then .i16 else if size ≤ 4 then .i32 else .i64

/-- riscv64_abi.c:76: two entries, both `TYPE_FLOAT`. -/
def bothF : List Ent → Bool
  | [a, b] => a.fl && b.fl
  | _ => false

/-- riscv64_abi.c:71-94 `reg_pass`: the entries `1 … prc[0]` (at most two are ever looked at), and the first kind.  `nv` is
`areg[1]`. -/
def regPass (t : Ty) (nv : Nat) : Option (List Ent × Scal) := do
  let r ← rec t ⟨false, []⟩ 0
  if r.neg ∨ r.ents.length = 0 ∨ (bothF r.ents = true ∧ 7 ≤ nv) then
    let size := sizeOf t % 65536
    some (if 8 < size then [⟨false, .i64, 0⟩, ⟨false, intKind (size - 8), 8⟩] else if 0 < size then [⟨false, intKind size, 0⟩] else [], intKind size)
  else some (r.ents, match r.ents with | e :: _ => e.kind | [] => .i8)

/-- `pos_item_t`: `main`, the kind in `main_filed_offset` (the offset is asserted to be 0), and if there is a second place
`attach` with kind and offset. -/
structure Pos where
  main : Nat
  kind : Scal
  attach : Option (Nat × Scal × Nat)
deriving DecidableEq, Repr

/-- riscv64_abi.c:112-183, one round of the loop of `riscv64_pcs_aux`: the place and the new `areg[0]`, `areg[1]`, `ns`.  A
position below 16 is twice the general register, below 32 it is 16 plus twice the floating point register, and from 32 on 32 plus
the offset on the stack; bit 0 says that an address is passed.  No type has an alignment above 8, so what goes on the stack takes
8 bytes. -/
def posOf (t : Ty) (nx nv ns : Nat) : Option (Pos × Nat × Nat × Nat) :=
  let size := sizeOf t % 65536
  if t.ind = true ∧ (Ty.isAgg t = false ∨ 16 < size) then
    if nx < 8 then some (⟨2 * nx + 1, .i64, none⟩, nx + 1, nv, ns) else some (⟨ns + 1, .i64, none⟩, nx, nv, ns + 8)
  else do
    let (es, k) ← regPass t nv
    if size = 0 then some (⟨0, k, none⟩, nx, nv, ns)
    else match es with
      | [a] =>
        if a.off ≠ 0 then none
        else if (a.fl = false ∧ 8 ≤ nx) ∨ (a.fl = true ∧ 8 ≤ nv) then some (⟨ns, a.kind, none⟩, nx, nv, ns + 8)
        else if a.fl then some (⟨16 + 2 * nv, a.kind, none⟩, nx, nv + 1, ns)
        else some (⟨2 * nx, a.kind, none⟩, nx + 1, nv, ns)
      | [a, b] =>
        if a.off ≠ 0 then none
        else if (a.fl = false ∧ 8 ≤ nx) ∨ (a.fl = true ∧ 8 ≤ nv) ∨ (a.fl = true ∧ b.fl = true ∧ 7 ≤ nv) ∨ (a.fl ≠ b.fl ∧ (8 ≤ nv ∨ 8 ≤ nx)) then
          some (⟨ns, a.kind, some (ns + 8, b.kind, b.off)⟩, nx, nv, ns + 16)
        else
          let (m, nx, nv) := if a.fl then (16 + 2 * nv, nx, nv + 1) else (2 * nx, nx + 1, nv)
          if b.fl = true ∧ nv < 8 then some (⟨m, a.kind, some (16 + 2 * nv, b.kind, b.off)⟩, nx, nv + 1, ns)
          else if b.fl = false ∧ nx < 8 then some (⟨m, a.kind, some (2 * nx, b.kind, b.off)⟩, nx + 1, nv, ns)
          else some (⟨m, a.kind, some (ns, b.kind, b.off)⟩, nx, nv, ns + 8)
      | _ => none

/-- riscv64_abi.c:107-187 `riscv64_pcs_aux`: the positions, and the final `ns`. -/
def pcs : List Ty → (nx nv ns : Nat) → Option (List Pos × Nat)
  | [], _, _, ns => some ([], ns)
  | t :: ts, nx, nv, ns => do
    let (p, nx, nv, ns) ← posOf t nx nv ns
    let (ps, ns) ← pcs ts nx nv ns
    some (p :: ps, ns)

/-- src/register/register.c:10-25 `reg_select`: the register file is chosen by the kind; x10 is a0 and f10 is fa0. -/
def regOf (pos : Nat) (k : Scal) : Opd :=
  let r := if pos < 16 then pos / 2 else (pos - 16) / 2
  if k.isF then .fp r else .gp r

/-! ### The called function -/

/-- riscv64_abi.c:215-316, the source of a part: a register or the stack. -/
def inOpd (pos : Nat) (k : Scal) : Opd :=
  if pos < 32 then regOf pos k else .slot (16 + (pos - pos % 2 - 32 : Nat))

/-- riscv64_abi.c:214-317, one parameter: the operations and the new `c->stack_offset`; `none` when an assertion fails. -/
def param (i : Nat) (t : Ty) (p : Pos) (so : Nat) : Option (List Op × Nat) := do
  let m :=
    if Ty.isAgg t = true ∧ p.main % 2 = 0 then
      ([allocOp so t (.formal i), .mov (.ind (.formal i) 0) (inOpd p.main p.kind) p.kind.size], allocOff so t)
    else ([.mov (.var (.formal i)) (inOpd p.main (immKind t)) (if p.main < 32 then (immKind t).size else p.kind.size)], so)
  match p.attach with
  | none => some m
  | some (a, k, off) =>
    if Ty.isAgg t = true then some (m.1 ++ [.mov (.ind (.formal i) off) (inOpd a k) k.size], m.2) else none

/-- riscv64_abi.c:192-320 `riscv64_lower_params`; the parameters come with their numbers. -/
def params : List (Nat × Ty) → List Pos → (so : Nat) → Option (List Op × Nat)
  | (i, t) :: ts, p :: ps, so => do
    let (here, so1) ← param i t p so
    let (rest, so2) ← params ts ps so1
    some (here ++ rest, so2)
  | _, _, so => some ([], so)

/-- The arguments with their numbers. -/
def number : (i : Nat) → List Ty → List (Nat × Ty)
  | _, [] => []
  | i, t :: ts => (i, t) :: number (i + 1) ts

/-- riscv64_abi.c:328: the result goes through memory, in the called function. -/
def memResIn (t : Ty) : Bool := t.ind && (!Ty.isAgg t || decide (16 < sizeOf t))

/-- riscv64_abi.c:322-350 `riscv64_lower_fn_begin`, and the final `c->stack_offset`. -/
def lowerBegin (rt : Option Ty) (ts : List Ty) (so : Nat) : Option (List Op × Nat) :=
  let ps : List (Nat × Ty) := (match rt with
    | some t => if memResIn t then [(ts.length, .scal .i64)] else []
    | none => []) ++ number 0 ts
  do
    let (pos, _) ← pcs (ps.map (·.2)) 0 0 32
    params ps pos so

/-! ### The caller -/

/-- riscv64_abi.c:412-426: the copies of what is passed by address, in the caller's frame, and the new `c->stack_offset`. -/
def copies : (i : Nat) → List Ty → List Pos → (so : Nat) → List Op × Nat
  | i, t :: ts, p :: ps, so =>
    if p.main % 2 = 1 then
      let r := copies (i + 1) ts ps (allocOff so t)
      ((allocOp so t (.work i 0) :: memMov i (sizeOf t) (.work i 0) (.actual i)) ++ r.1, r.2)
    else copies (i + 1) ts ps so
  | _, _, _, so => ([], so)

/-- riscv64_abi.c:430-470, one argument: what of it goes on the stack. -/
def stackArg (i : Nat) (t : Ty) (p : Pos) : Option (List Op) :=
  let fla := Ty.isAgg t = true ∧ p.main % 2 = 0
  let m : List Op :=
    if 32 ≤ p.main then
      if fla then [.mov (.spo (p.main - p.main % 2 - 32)) (.ind (.actual i) 0) p.kind.size]
      else [.mov (.spo (p.main - p.main % 2 - 32)) (.var (if p.main % 2 = 1 then .work i 0 else .actual i)) (immKind t).size]
    else []
  match p.attach with
  | none => some m
  | some (a, k, off) =>
    if 32 ≤ a then if fla then some (m ++ [.mov (.spo (a - a % 2 - 32)) (.ind (.actual i) off) k.size]) else none else some m

/-- riscv64_abi.c:492-553, one argument: what of it goes in registers. -/
def regArg (i : Nat) (t : Ty) (p : Pos) : Option (List Op) :=
  let m : List Op :=
    if p.main < 32 then
      [.mov (regOf p.main p.kind)
        (if Ty.isAgg t = true ∧ p.main % 2 = 0 then .ind (.actual i) 0 else .var (if p.main % 2 = 1 then .work i 0 else .actual i)) p.kind.size]
    else []
  match p.attach with
  | none => some m
  | some (a, k, off) =>
    if a < 32 then if Ty.isAgg t = true ∧ a % 2 = 0 then some (m ++ [.mov (regOf a k) (.ind (.actual i) off) k.size]) else none else some m

/-- The loops over the arguments. -/
def each (f : Nat → Ty → Pos → Option (List Op)) : (i : Nat) → List Ty → List Pos → Option (List Op)
  | i, t :: ts, p :: ps => do
    let here ← f i t p
    let rest ← each f (i + 1) ts ps
    some (here ++ rest)
  | _, _, _ => some []

/-- riscv64_abi.c:377-390: the position of the result; `none` when the assertion fails. -/
def resPos (t : Ty) : Option Pos := do
  let (p, _) ← posOf t 0 0 32
  if p.main = 0 ∨ p.main = 1 ∨ p.main = 16 then some p else none

/-- riscv64_abi.c:394, 478, 565: the result goes through memory, at the call (its position is 1). -/
def memRes (t : Ty) : Bool := match resPos t with | some p => p.main == 1 | none => false

/-- riscv64_abi.c:392-401: the positions of the arguments and the final `ns`. -/
def callPcs (rt : Option Ty) (ts : List Ty) : Option (List Pos × Nat) :=
  match rt with
  | none => pcs ts 0 0 32
  | some t =>
    if memResIn t then do
      let (ps, ns) ← pcs (t :: ts) 0 0 32
      some (ps.tail, ns)
    else pcs ts 0 0 32

/-- riscv64_abi.c:186, 404-407: the bytes of the stack reserved for the call. -/
def argBytes (rt : Option Ty) (ts : List Ty) : Nat :=
  match callPcs rt ts with
  | some (_, ns) => alignUp (ns - 32) 16
  | none => 0

/-- riscv64_abi.c:352-567 `riscv64_lower_call`, what is emitted before the call, and the final `c->stack_offset`. -/
def lowerCall (rt : Option Ty) (ts : List Ty) (so : Nat) : Option (List Op × Nat) := do
  let big ← match rt with
    | none => some false
    | some t => do
      let p ← resPos t
      some (p.main == 1)
  let (ps, _) ← callPcs rt ts
  let c := copies 0 ts ps so
  let st ← each stackArg 0 ts ps
  let rg ← each regArg 0 ts ps
  match rt with
  | some t =>
    if big then
      some (c.1 ++ st ++ [allocOp c.2 t (.actual ts.length), .mov (.gp 0) (.var (.actual ts.length)) 8] ++ rg, allocOff c.2 t)
    else some (c.1 ++ st ++ rg, c.2)
  | none => some (c.1 ++ st ++ rg, c.2)

/-! ### The result -/

/-- riscv64_abi.c:662-744 `riscv64_lower_return`.  `return_size` has 8 bits. -/
def lowerReturn (t : Ty) : Option (List Op) := do
  let (p, _) ← posOf t 0 0 32
  let size := sizeOf t % 256
  if Ty.isAgg t = true ∧ size ≤ 16 then
    let lo : List Op := [.mov (regOf p.main p.kind) (.ind .ret 0) p.kind.size]
    match p.attach with
    | some (a, k, off) => some (if 0 < a then lo ++ [.mov (regOf a k) (.ind .ret off) k.size] else lo)
    | none => some lo
  else if 16 < size then some (memMov 0 size .big .ret)
  else some [.mov (if (immKind t).isF then .fp 0 else .gp 0) (.var .ret) (immKind t).size]

/-- riscv64_abi.c:560-660: after the call.  With a result in memory nothing is left to do: the variable holds the address. -/
def lowerResult (t : Ty) (so : Nat) : Option (List Op) := do
  let p ← resPos t
  if p.main = 1 then some []
  else if Ty.isAgg t = true ∧ sizeOf t % 256 ≤ 16 then
    let lo : List Op := [allocOp so t .res, .mov (.ind .res 0) (regOf p.main p.kind) p.kind.size]
    match p.attach with
    | some (a, k, off) => some (lo ++ [.mov (.ind .res off) (regOf a k) k.size])
    | none => some lo
  else some [.mov (.var .res) (if (immKind t).isF then .fp 0 else .gp 0) (immKind t).size]

end Nature.Abi.Rv
