import Verif.Abi.Mach
/-
Passing arguments and results on arm64 (/repo/src/lower/arm64_abi.c).

Not modelled: the function operand (moved to x17), the record of used registers, the moves through a temporary with a required
register (a move to the register, see `Mach.lean`), `c->call_stack_max_offset` (see `argBytes`).  The variable that receives the
result is `actual n` and `c->return_big_operand` is `formal n`, where `n` is the number of arguments.
-/
namespace Nature.Abi.Arm
open Nature.TypeLayout (alignUp)

def Ty.isAgg : Ty → Bool
  | .agg _ => true
  | _ => false

mutual
/-- arm64_abi.c:4-51 `arm64_hfa_aux`: `num` and `*fsize` after it; `none` is -1. -/
def hfaAux : Ty → (fsize num : Nat) → Option (Nat × Nat)
  | .scal s, fsize, num =>
    if s.isF then (if 4 ≤ num ∨ (fsize ≠ 0 ∧ fsize ≠ s.size) then none else some (num + 1, s.size)) else none
  | .agg es, fsize, num =>
    match hfaFields es fsize num num 0 with
    | none => none
    | some (num', fsize') => if sizeOf (.agg es) ≠ (num' - num) * fsize' then none else some (num', fsize')
  | .arr _ _, _, _ => none
/-- arm64_abi.c:26-41, the loop over the elements. -/
def hfaFields : Tys → (fsize num num0 offset : Nat) → Option (Nat × Nat)
  | .nil, fsize, num, _, _ => some (num, fsize)
  | .cons t rest, fsize, num, num0, offset =>
    if alignUp offset (alignOf t) ≠ (num - num0) * fsize then none
    else match hfaAux t fsize num with
      | none => none
      | some (num', fsize') => hfaFields rest fsize' num' num0 (alignUp offset (alignOf t) + sizeOf t)
end

/-- arm64_abi.c:53-65 `arm64_hfa`: the number of floating point numbers of equal size a struct consists of (0 if it does not, or
of more than four), and their size. -/
def hfa (t : Ty) : Nat × Nat :=
  if t.ind then
    match hfaAux t 0 0 with
    | some (n, fs) => if 0 < n ∧ n ≤ 4 then (n, fs) else (0, 0)
    | none => (0, 0)
  else (0, 0)

/-- arm64_abi.c:67-188 `arm64_pcs_aux`, one round of the loop: the position and the new `nx`, `nv`, `ns`.  Bit 0 of a position
says that an address is passed; below 16 it is twice the general register, below 32 it is 16 plus twice the vector register, and
from 32 on 32 plus the offset on the stack.  No type has an alignment of 16 and no scalar has 16 bytes, so C.8 and C.9 (138-147)
never apply, and floating point scalars never come to C.5 and C.6. -/
def posOf (t : Ty) (nx nv ns : Nat) : Nat × Nat × Nat × Nat :=
  match t with
  | .arr _ _ => if nx < 8 then (2 * nx + 1, nx + 1, nv, ns) else (alignUp ns 8 + 1, nx, nv, alignUp ns 8 + 8)
  | .scal s =>
    if s.isF then (16 + 2 * nv, nx, nv + 1, ns)
    else if nx < 8 then (2 * nx, nx + 1, nv, ns)
    else
      let ns := alignUp (alignUp ns 8) s.size
      (ns, 8, nv, ns + (if s.size < 8 then 8 else s.size))
  | .agg es =>
    let t : Ty := .agg es
    let h := (hfa t).1
    if h = 0 ∧ 16 < sizeOf t then
      if nx < 8 then (2 * nx + 1, nx + 1, nv, ns) else (alignUp ns 8 + 1, nx, nv, alignUp ns 8 + 8)
    else if h ≠ 0 ∧ nv + h ≤ 8 then (16 + 2 * nv, nx, nv + h, ns)
    else if h ≠ 0 then (ns, nx, 8, ns + alignUp (sizeOf t) 8)
    else if alignUp (sizeOf t) 8 ≤ (8 - nx) * 8 then (2 * nx, nx + (alignUp (sizeOf t) 8 + 7) / 8, nv, ns)
    else
      let ns := alignUp (alignUp ns 8) (alignOf t)
      (ns, 8, nv, ns + alignUp (sizeOf t) 8)

/-- arm64_abi.c:67-188 `arm64_pcs_aux`: the positions, and the final `ns`. -/
def pcs : List Ty → (nx nv ns : Nat) → List Nat × Nat
  | [], _, _, ns => ([], ns)
  | t :: ts, nx, nv, ns =>
    let p := posOf t nx nv ns
    let r := pcs ts p.2.1 p.2.2.1 p.2.2.2
    (p.1 :: r.1, r.2)

/-- arm64_abi.c:391, 396-399: the bytes of the stack reserved for the call. -/
def argBytes (ts : List Ty) : Nat := alignUp ((pcs ts 0 0 32).2 - 32) 16

/-! ### The called function -/

/-- The bytes a load or store of a variable of type `t` moves (native/arm64.c:486-566): an address, but for the sizes 1 and 2
of the type. -/
def varSize (t : Ty) : Nat := if t.ind = true ∧ sizeOf t ≠ 1 ∧ sizeOf t ≠ 2 then 8 else sizeOf t

/-- arm64_abi.c:220-298, one parameter: the operations and the new `c->stack_offset`; `none` when an assertion fails. -/
def param (i : Nat) (t : Ty) (pos so : Nat) : Option (List Op × Nat) :=
  if pos < 16 then
    if Ty.isAgg t = true ∧ pos % 2 = 0 then
      some (allocOp so t (.formal i) :: .mov (.ind (.formal i) 0) (.gp (pos / 2)) 8 ::
        (if 8 < sizeOf t then [.mov (.ind (.formal i) 8) (.gp (pos / 2 + 1)) 8] else []), allocOff so t)
    else some ([.mov (.var (.formal i)) (.gp (pos / 2)) (if t.ind then 8 else sizeOf t)], so)
  else if pos < 32 then
    if Ty.isAgg t = true then
      some (allocOp so t (.formal i) ::
        (List.range (hfa t).1).map fun j => .mov (.ind (.formal i) (j * (hfa t).2)) (.fp (pos / 2 - 8 + j)) (hfa t).2, allocOff so t)
    else some ([.mov (.var (.formal i)) (.fp (pos / 2 - 8)) (sizeOf t)], so)
  else
    let src : Opd := .slot (16 + (pos - pos % 2 - 32 : Nat))
    if pos % 2 = 1 ∨ sizeOf t ≤ 8 then some ([.mov (.var (.formal i)) src (varSize t)], so)
    else if t.ind = true ∧ sizeOf t ≤ 16 then some ([.lea (.var (.work i 1)) src, .mov (.var (.formal i)) (.var (.work i 1)) 8], so)
    else none

/-- arm64_abi.c:193-303 `arm64_lower_params`. -/
def params : (i : Nat) → List Ty → List Nat → (so : Nat) → Option (List Op × Nat)
  | i, t :: ts, p :: ps, so => do
    let (here, so1) ← param i t p so
    let (rest, so2) ← params (i + 1) ts ps so1
    some (here ++ rest, so2)
  | _, _, _, so => some ([], so)

/-- arm64_abi.c:305-331, 399-401, 538: the result goes through memory.  (The caller asks whether its position is 1.) -/
def memRes (t : Ty) : Bool := (posOf t 0 0 32).1 == 1

/-- arm64_abi.c:318-330: in the called function. -/
def memResIn : Ty → Bool
  | .arr _ _ => true
  | .agg es => (hfa (.agg es)).1 == 0 && decide (16 < sizeOf (.agg es))
  | .scal _ => false

/-- arm64_abi.c:305-338 `arm64_lower_fn_begin`, and the final `c->stack_offset`. -/
def lowerBegin (rt : Option Ty) (ts : List Ty) (so : Nat) : Option (List Op × Nat) := do
  let (ops, so') ← params 0 ts (pcs ts 0 0 32).1 so
  some ((match rt with
    | some t => if memResIn t then [.mov (.var (.formal ts.length)) (.gp 8) 8] else []
    | none => []) ++ ops, so')

/-! ### The caller -/

/-- arm64_abi.c:404-420: the copies of what is passed by address, in the caller's frame, and the new `c->stack_offset`. -/
def copies : (i : Nat) → List Ty → List Nat → (so : Nat) → List Op × Nat
  | i, t :: ts, p :: ps, so =>
    if p % 2 = 1 then
      let r := copies (i + 1) ts ps (allocOff so t)
      ((allocOp so t (.work i 0) :: memMov i (sizeOf t) (.work i 0) (.actual i)) ++ r.1, r.2)
    else copies (i + 1) ts ps so
  | _, _, _, so => ([], so)

/-- arm64_abi.c:423-450, one argument on the stack; `none` when an assertion fails here or in the store of one or two bytes from
a 64 bit register (native/arm64.c:500-509).  A struct of up to eight bytes is not loaded: what is stored is the variable, that is
its address. -/
def stackArg (i : Nat) (t : Ty) (pos : Nat) : Option (List Op) :=
  if pos < 32 then some []
  else
    let dst : Opd := .spo (pos - pos % 2 - 32)
    if pos % 2 = 1 ∨ sizeOf t ≤ 8 then
      if t.ind = true ∧ (sizeOf t = 1 ∨ sizeOf t = 2) then none
      else some [.mov dst (.var (if pos % 2 = 1 then .work i 0 else .actual i)) (varSize t)]
    else if sizeOf t ≤ 16 then some (.lea (.var (.work i 0)) dst :: memMov i (sizeOf t) (.work i 0) (.actual i))
    else none

/-- arm64_abi.c:455-525, one argument in registers; `none` when an assertion fails. -/
def regArg (i : Nat) (t : Ty) (pos : Nat) : Option (List Op) :=
  if pos < 16 then
    if Ty.isAgg t = true ∧ pos % 2 = 0 then
      some (.mov (.gp (pos / 2)) (.ind (.actual i) 0) 8 ::
        (if 8 < sizeOf t then [.mov (.gp (pos / 2 + 1)) (.ind (.actual i) 8) 8] else []))
    else some [.mov (.gp (pos / 2)) (.var (if pos % 2 = 1 then .work i 0 else .actual i)) (if t.ind then 8 else sizeOf t)]
  else if pos < 32 then
    if Ty.isAgg t = true then
      if (hfa t).2 = 4 ∨ (hfa t).2 = 8 then
        some ((List.range (hfa t).1).map fun j => .mov (.fp (pos / 2 - 8 + j)) (.ind (.actual i) (j * (hfa t).2)) (hfa t).2)
      else none
    else some [.mov (.fp (pos / 2 - 8)) (.var (.actual i)) (sizeOf t)]
  else some []

/-- The loops over the arguments. -/
def each (f : Nat → Ty → Nat → Option (List Op)) : (i : Nat) → List Ty → List Nat → Option (List Op)
  | i, t :: ts, p :: ps => do
    let here ← f i t p
    let rest ← each f (i + 1) ts ps
    some (here ++ rest)
  | _, _, _ => some []

/-- arm64_abi.c:340-555 `arm64_lower_call`, what is emitted before the call, and the final `c->stack_offset`.  The move to x8
(543, and again through a temporary in 547) is modelled once. -/
def lowerCall (rt : Option Ty) (ts : List Ty) (so : Nat) : Option (List Op × Nat) := do
  let ps := (pcs ts 0 0 32).1
  let c := copies 0 ts ps so
  let st ← each stackArg 0 ts ps
  let rg ← each regArg 0 ts ps
  match rt with
  | none => some (c.1 ++ st ++ rg, c.2)
  | some t =>
    if memRes t then
      some (c.1 ++ st ++ rg ++ [allocOp c.2 t (.actual ts.length), .mov (.gp 8) (.var (.actual ts.length)) 8], allocOff c.2 t)
    else some (c.1 ++ st ++ rg, c.2)

/-! ### The result -/

/-- arm64_abi.c:653-725 `arm64_lower_return`. -/
def lowerReturn (t : Ty) : List Op :=
  if Ty.isAgg t = true then
    if 0 < (hfa t).1 ∧ (hfa t).1 ≤ 4 then
      (List.range (hfa t).1).map fun j => .mov (.fp j) (.ind .ret (j * (hfa t).2)) (hfa t).2
    else if sizeOf t ≤ 16 then
      .mov (.gp 0) (.ind .ret 0) 8 :: (if 8 < sizeOf t then [.mov (.gp 1) (.ind .ret 8) 8] else [])
    else memMov 0 (sizeOf t) .big .ret
  else if 16 < sizeOf t then memMov 0 (sizeOf t) .big .ret
  else match t with
    | .scal s => [.mov (if s.isF then .fp 0 else .gp 0) (.var .ret) s.size]
    | _ => [.mov (.gp 0) (.var .ret) 8]

/-- arm64_abi.c:557-645: after the call.  With a result in memory nothing is left to do: the variable holds the address. -/
def lowerResult (t : Ty) (so : Nat) : List Op :=
  if memRes t then []
  else if Ty.isAgg t = true then
    allocOp so t .res ::
      (if (posOf t 0 0 32).1 < 16 then
        .mov (.ind .res 0) (.gp 0) 8 :: (if 8 < sizeOf t then [.mov (.ind .res 8) (.gp 1) 8] else [])
      else (List.range (hfa t).1).map fun j => .mov (.ind .res (j * (hfa t).2)) (.fp ((posOf t 0 0 32).1 / 2 - 8 + j)) (hfa t).2)
  else [.mov (.var .res) (if (posOf t 0 0 32).1 < 16 then .gp 0 else .fp 0) (sizeOf t)]

end Nature.Abi.Arm
