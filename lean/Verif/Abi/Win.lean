import Verif.Abi.Sysv
/-
Passing arguments and results on amd64 with the Microsoft x64 convention (/repo/src/lower/amd64_abi.c, on Windows).

Not modelled: as for the System V convention.
-/
namespace Nature.Abi.Win
open Nature.TypeLayout (alignUp)
open Sysv (Cls)

/-- amd64_abi.c:50-69 `amd64_windows_type_classify`: the class; `none` is the return value 0. -/
def cls : Ty → Option Cls
  | .arr _ _ => none
  | .agg es => if sizeOf (.agg es) = 1 ∨ sizeOf (.agg es) = 2 ∨ sizeOf (.agg es) = 4 ∨ sizeOf (.agg es) = 8 then some .integer else none
  | .scal s => some (if s.isF then .sse else .integer)

/-- amd64_abi.c:28-32 `amd64_windows_int_arg_reg`; `none` is the assertion. -/
def intReg (slot : Nat) : Option Nat := [1, 2, 8, 9][slot]?
/-- amd64_abi.c:34-38 `amd64_windows_sse_arg_reg`. -/
def sseReg (slot : Nat) : Option Nat := [0, 1, 2, 3][slot]?

/-! ### The called function -/

/-- amd64_abi.c:163-236 `amd64_windows_lower_params`, and the final `c->stack_offset`.  `slot` is `stack_param_slot`, `so` is
`c->stack_offset`. -/
def params : (i : Nat) → List Ty → (slot so : Nat) → Option (List Op × Nat)
  | _, [], _, so => some ([], so)
  | i, t :: ts, slot, so =>
    match cls t with
    | none =>
      if i < 4 then do
        let r ← intReg i
        let (rest, so') ← params (i + 1) ts slot so
        some (.mov (.var (.formal i)) (.gp r) 8 :: rest, so')
      else do
        let (rest, so') ← params (i + 1) ts (slot + 8) so
        some (.mov (.var (.formal i)) (.slot slot) 8 :: rest, so')
    | some c =>
      match t with
      | .scal s =>
        if i < 4 then do
          let r ← if c = .sse then (sseReg i).map Opd.fp else (intReg i).map Opd.gp
          let (rest, so') ← params (i + 1) ts slot so
          some (.mov (.var (.formal i)) r s.size :: rest, so')
        else do
          let (rest, so') ← params (i + 1) ts (slot + 8) so
          some (.mov (.var (.formal i)) (.slot slot) s.size :: rest, so')
      | _ =>
        if i < 4 then do
          let r ← intReg i
          let (rest, so') ← params (i + 1) ts slot (allocOff so t)
          some (allocOp so t (.formal i) :: .mov (.ind (.formal i) 0) (.gp r) (sizeOf t) :: rest, so')
        else do
          let (rest, so') ← params (i + 1) ts (slot + 8) (allocOff so t)
          some (allocOp so t (.formal i) :: .mov (.ind (.formal i) 0) (.slot slot) (sizeOf t) :: rest, so')

/-- amd64_abi.c:163-171. -/
def lowerParams (ts : List Ty) (so : Nat) : Option (List Op × Nat) := params 0 ts (16 + 32) so

/-! ### The caller -/

/-- amd64_abi.c:462-476: `copy_offsets` (0 where there is no copy), and the final `copy_cursor`. -/
def copyOffsets : List Ty → (cursor : Nat) → List Nat × Nat
  | [], cursor => ([], cursor)
  | t :: ts, cursor =>
    match cls t with
    | some _ => let (os, c) := copyOffsets ts cursor; (0 :: os, c)
    | none =>
      let at' := alignUp cursor 16
      let (os, c) := copyOffsets ts (at' + alignUp (max (sizeOf t) 1) 16)
      (at' :: os, c)

/-- amd64_abi.c:490-509: the copies. -/
def copies : (i : Nat) → List Ty → List Nat → List Op
  | i, t :: ts, o :: os =>
    match cls t with
    | some _ => copies (i + 1) ts os
    | none => (.lea (.var (.work i 0)) (.spo o) :: memMov i (sizeOf t) (.work i 0) (.actual i)) ++ copies (i + 1) ts os
  | _, _, _ => []

/-- amd64_abi.c:513-541: the arguments on the stack. -/
def stackArgs : (i : Nat) → List Ty → List Op
  | _, [] => []
  | i, t :: ts =>
    if i < 4 then stackArgs (i + 1) ts
    else
      let rsp_offset := 32 + (i - 4) * 8
      (match cls t with
        | none => [.mov (.spo rsp_offset) (.var (.work i 0)) 8]
        | some _ =>
          match t with
          | .scal s => [.mov (.spo rsp_offset) (.var (.actual i)) s.size]
          | _ => [.mov (.var (.work i 0)) (.ind (.actual i) 0) (sizeOf t), .mov (.spo rsp_offset) (.var (.work i 0)) (sizeOf t)])
        ++ stackArgs (i + 1) ts

/-- amd64_abi.c:549-584: the arguments in registers; `none` when an assertion fails. -/
def regArgs : (i : Nat) → List Ty → Option (List Op)
  | _, [] => some []
  | i, t :: ts =>
    if i < 4 then do
      let here ← match cls t with
        | none => do some [.mov (.gp (← intReg i)) (.var (.work i 0)) 8]
        | some c =>
          match t with
          | .scal s =>
            if c = .sse then do
              some [.mov (.fp (← sseReg i)) (.var (.actual i)) s.size, .mov (.spo (i * 8)) (.var (.actual i)) s.size,
                .mov (.gp (← intReg i)) (.spo (i * 8)) s.size]
            else do some [.mov (.gp (← intReg i)) (.var (.actual i)) s.size]
          | _ => do some [.mov (.gp (← intReg i)) (.ind (.actual i) 0) (sizeOf t)]
      let rest ← regArgs (i + 1) ts
      some (here ++ rest)
    else some []

/-- amd64_abi.c:457-461: where the copies start. -/
def copyStart (ts : List Ty) : Nat := 32 + (if 4 < ts.length then ts.length - 4 else 0) * 8

/-- amd64_abi.c:440-588 `amd64_windows_lower_args`: what is emitted before the call. -/
def lowerArgs (ts : List Ty) : Option (List Op) :=
  (regArgs 0 ts).map fun r => copies 0 ts (copyOffsets ts (copyStart ts)).1 ++ stackArgs 0 ts ++ r

/-- amd64_abi.c:478-484: the bytes of the stack reserved for the call. -/
def argBytes (ts : List Ty) : Nat :=
  let out := alignUp (copyOffsets ts (copyStart ts)).2 16
  if out < 32 then 32 else out

/-! ### The result -/

/-- amd64_abi.c:403-431, 829-842: the parameters, with the address for a result that goes through memory in front, in the called
function and at the call. -/
def beginTypes (rt : Option Ty) (ts : List Ty) : List Ty :=
  match rt with
  | none => ts
  | some t => if (cls t).isNone then .scal .i64 :: ts else ts

/-- amd64_abi.c:79-152 `amd64_lower_return`. -/
def lowerReturn (t : Ty) : Option (List Op) :=
  match cls t with
  | none => if t.ind then some (memMov 0 (sizeOf t) .big .ret ++ [.mov (.gp 0) (.var .big) 8]) else none
  | some c =>
    match t with
    | .agg _ => some [.mov (if c = .integer then .gp 0 else .fp 0) (.ind .ret 0) (sizeOf t)]
    | .scal s => some [.mov (if c = .integer then .gp 0 else .fp 0) (.var .ret) s.size]
    | .arr _ _ => none

/-- amd64_abi.c:857-920. -/
def lowerResult (t : Ty) : Option (List Op) :=
  match cls t with
  | none => some [.mov (.var .res) (.gp 0) 8]
  | some c =>
    match t with
    | .agg _ => some [.mov (.ind .res 0) (if c = .integer then .gp 0 else .fp 0) (sizeOf t)]
    | .scal s => some [.mov (.var .res) (if c = .integer then .gp 0 else .fp 0) s.size]
    | .arr _ _ => none

end Nature.Abi.Win
