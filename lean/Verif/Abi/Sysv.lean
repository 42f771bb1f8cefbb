import Verif.Abi.Mach
/-
Passing arguments and results on amd64 with the System V convention (/repo/src/lower/amd64_abi.c, on every target but Windows).

Not modelled: the address of the called function, which goes to r11 when it is in a variable (lines 809-815, 849-855), the list
of registers recorded at the call instruction for the register allocator, and `c->call_stack_max_offset` beyond its value.
-/
namespace Nature.Abi.Sysv
open Nature.TypeLayout (alignUp)

/-- src/lower/amd64_abi.h `amd64_class_t`. -/
inductive Cls | no | integer | sse | memory
deriving DecidableEq, Repr

/-- amd64_abi.c:922-942 `amd64_classify_merge`. -/
def merge (a b : Cls) : Cls :=
  if a = b then a
  else if a = .no then b
  else if b = .no then a
  else if a = .memory || b = .memory then .memory
  else if a = .integer || b = .integer then .integer
  else .sse

mutual
/-- amd64_abi.c:944-992 `amd64_type_classify`: the new `*lo` and `*hi`; `none` is the return value 0. -/
def classify (t : Ty) (lo hi : Cls) (offset : Nat) : Option (Cls × Cls) :=
  if 16 < sizeOf t then none else
  match t with
  | .arr _ _ => none
  | .scal s =>
    let k := if s.isF then .sse else .integer
    if offset < 8 then some (merge lo k, hi) else some (lo, merge hi k)
  | .agg es => classifyAll es lo hi (alignUp offset (maxAlign es))
/-- amd64_abi.c:966-980, the loop over the elements. -/
def classifyAll (es : Tys) (lo hi : Cls) (offset : Nat) : Option (Cls × Cls) :=
  match es with
  | .nil => some (lo, hi)
  | .cons t rest =>
    let off := alignUp offset (alignOf t)
    match classify t lo hi off with
    | none => none
    | some (lo, hi) => classifyAll rest lo hi (off + sizeOf t)
end

/-- The call of `amd64_type_classify` with both classes `NO` and offset 0. -/
def cls (t : Ty) : Option (Cls × Cls) := classify t .no .no 0

/-- amd64_abi.c:991: the number of classes. -/
def two (hi : Cls) : Bool := hi != .no

/-- amd64_abi.c:300-301, 696-697. -/
def intRegs : List Nat := [7, 6, 2, 1, 8, 9]
def sseRegs : List Nat := [0, 1, 2, 3, 4, 5, 6, 7]

/-! ### The caller -/

/-- amd64_abi.c:613-657, one round of the loop: `none` if the argument goes on the stack, else the new register counts. -/
def callerPick (t : Ty) (sse int : Nat) : Option (Nat × Nat) :=
  match cls t with
  | none => none
  | some (lo, hi) =>
    if two hi = false then
      if lo = .sse ∧ sse + 1 ≤ 8 then some (sse + 1, int)
      else if lo = .integer ∧ int + 1 ≤ 6 then some (sse, int + 1)
      else none
    else if lo = hi then
      if lo = .sse ∧ sse + 2 ≤ 8 then some (sse + 2, int)
      else if lo = .integer ∧ int + 2 ≤ 6 then some (sse, int + 2)
      else none
    else if sse + 1 ≤ 8 ∧ int + 1 ≤ 6 then some (sse + 1, int + 1)
    else none

/-- amd64_abi.c:613-657: `onstack`, and the final `stack_offset`. -/
def callerMark : List Ty → (sse int off : Nat) → List Bool × Nat
  | [], _, _, off => ([], off)
  | t :: ts, sse, int, off =>
    match callerPick t sse int with
    | none => let (m, o) := callerMark ts sse int (off + alignUp (sizeOf t) 8); (true :: m, o)
    | some (sse, int) => let (m, o) := callerMark ts sse int off; (false :: m, o)

/-- amd64_abi.c:664-693: the arguments on the stack. -/
def callerStk : (i : Nat) → List Ty → List Bool → (off : Nat) → List Op
  | i, t :: ts, onstack :: ms, off =>
    if onstack = false then callerStk (i + 1) ts ms off
    else
      (if t.ind then .lea (.var (.work i 0)) (.spo off) :: memMov i (sizeOf t) (.work i 0) (.actual i)
       else [.mov (.spo off) (.var (.actual i)) (sizeOf t)]) ++ callerStk (i + 1) ts ms (off + alignUp (sizeOf t) 8)
  | _, _, _, _ => []

/-- amd64_abi.c:714-727, 735-748 (and 334-346, 355-368 in the callee): the next register of a class; `none` is `assert(false)`, or
reading past the table. -/
def takeReg (c : Cls) (int sse : Nat) : Option (Opd × Nat × Nat) :=
  match c with
  | .integer => (intRegs[int]?).map fun r => (.gp r, int + 1, sse)
  | .sse => (sseRegs[sse]?).map fun r => (.fp r, int, sse + 1)
  | _ => none

/-- amd64_abi.c:701-779: the arguments in registers; `none` when an assertion fails. -/
def callerReg : (i : Nat) → List Ty → List Bool → (int sse : Nat) → Option (List Op)
  | i, t :: ts, onstack :: ms, int, sse =>
    if onstack = true then callerReg (i + 1) ts ms int sse
    else
      match cls t with
      | none => none
      | some (lo, hi) =>
        match t with
        | .scal s => do
          if two hi then none else
          let (r, int, sse) ← takeReg lo int sse
          let rest ← callerReg (i + 1) ts ms int sse
          some (.mov r (.var (.actual i)) s.size :: rest)
        | _ => do
          let (r, int, sse) ← takeReg lo int sse
          if two hi then
            let (r2, int, sse) ← takeReg hi int sse
            let rest ← callerReg (i + 1) ts ms int sse
            some (.mov r (.ind (.actual i) 0) 8 :: .mov r2 (.ind (.actual i) 8) 8 :: rest)
          else
            let rest ← callerReg (i + 1) ts ms int sse
            some (.mov r (.ind (.actual i) 0) 8 :: rest)
  | _, _, _, _, _ => some []

/-- amd64_abi.c:590-785 `amd64_lower_args`: what is emitted before the call. -/
def lowerArgs (ts : List Ty) : Option (List Op) :=
  let m := (callerMark ts 0 0 0).1
  (callerReg 0 ts m 0 0).map fun r => callerStk 0 ts m 0 ++ r

/-- amd64_abi.c:661-663: the bytes of stack arguments of the call. -/
def argBytes (ts : List Ty) : Nat := (callerMark ts 0 0 0).2

/-! ### The called function -/

/-- amd64_abi.c:255-297, one round of the loop. -/
def calleePick (t : Ty) (sse int : Nat) : Option (Nat × Nat) :=
  match cls t with
  | none => none
  | some (lo, hi) =>
    if two hi = false then
      if lo = .sse ∧ sse + 1 ≤ 8 then some (sse + 1, int)
      else if lo = .integer ∧ int + 1 ≤ 6 then some (sse, int + 1)
      else none
    else if lo = hi then
      if lo = .sse ∧ sse + 2 ≤ 8 then some (sse + 2, int)
      else if lo = .integer ∧ int + 2 ≤ 6 then some (sse, int + 2)
      else none
    else if sse + 1 ≤ 8 ∧ int + 1 ≤ 6 then some (sse + 1, int + 1)
    else none

/-- amd64_abi.c:255-297: `onstack`. -/
def calleeMark : List Ty → (sse int : Nat) → List Bool
  | [], _, _ => []
  | t :: ts, sse, int =>
    match calleePick t sse int with
    | none => true :: calleeMark ts sse int
    | some (sse, int) => false :: calleeMark ts sse int

/-- amd64_abi.c:307-397: the second loop, and the final `c->stack_offset`.  `slot` is `stack_param_slot`, `so` is
`c->stack_offset`. -/
def calleeTake : (i : Nat) → List Ty → List Bool → (int sse slot so : Nat) → Option (List Op × Nat)
  | i, t :: ts, onstack :: ms, int, sse, slot, so =>
    if onstack = true then do
      let (rest, so) ← calleeTake (i + 1) ts ms int sse (slot + alignUp (sizeOf t) 8) so
      some ((if t.ind then [.lea (.var (.work i 1)) (.slot slot), .mov (.var (.formal i)) (.var (.work i 1)) 8]
        else [.mov (.var (.formal i)) (.slot slot) (sizeOf t)]) ++ rest, so)
    else
      match cls t with
      | none => none
      | some (lo, hi) =>
        match t with
        | .scal s => do
          if two hi then none else
          let (r, int, sse) ← takeReg lo int sse
          let (rest, so) ← calleeTake (i + 1) ts ms int sse slot so
          some (.mov (.var (.formal i)) r s.size :: rest, so)
        | _ => do
          let (r, int, sse) ← takeReg lo int sse
          if two hi then
            let (r2, int, sse) ← takeReg hi int sse
            let (rest, so') ← calleeTake (i + 1) ts ms int sse slot (allocOff so t)
            some (allocOp so t (.formal i) :: .mov (.ind (.formal i) 0) r 8 :: .mov (.ind (.formal i) 8) r2 8 :: rest, so')
          else
            let (rest, so') ← calleeTake (i + 1) ts ms int sse slot (allocOff so t)
            some (allocOp so t (.formal i) :: .mov (.ind (.formal i) 0) r 8 :: rest, so')
  | _, _, _, _, _, _, so => some ([], so)

/-- amd64_abi.c:238-401 `amd64_lower_params`, and the final `c->stack_offset`. -/
def lowerParams (ts : List Ty) (so : Nat) : Option (List Op × Nat) :=
  calleeTake 0 ts (calleeMark ts 0 0) 0 0 16 so

/-! ### The result -/

/-- amd64_abi.c:403-431 `amd64_lower_fn_begin`: the parameters, with the address for a result that goes through memory in
front.  `none` as the result type is `void`. -/
def beginTypes (rt : Option Ty) (ts : List Ty) : List Ty :=
  match rt with
  | none => ts
  | some t => if (cls t).isNone then .scal .i64 :: ts else ts

/-- amd64_abi.c:787-843 `amd64_lower_call`: the arguments, with the address of the result in front. -/
def callTypes (rt : Option Ty) (ts : List Ty) : List Ty :=
  match rt with
  | none => ts
  | some t => if (cls t).isNone then .scal .i64 :: ts else ts

/-- amd64_abi.c:79-152 `amd64_lower_return`: what is emitted before the return; `none` when an assertion fails.  The returned
operand is `ret`, `c->return_big_operand` is `big`. -/
def lowerReturn (t : Ty) : Option (List Op) :=
  match cls t with
  | none => if t.ind then some (memMov 0 (sizeOf t) .big .ret ++ [.mov (.gp 0) (.var .big) 8]) else none
  | some (lo, hi) =>
    let r := if lo = .integer then .gp 0 else .fp 0
    match t with
    | .agg _ =>
      let r2 := if hi = .integer then .gp 2 else .fp 1
      some (.mov r (.ind .ret 0) 8 :: if two hi then [.mov r2 (.ind .ret 8) 8] else [])
    | .scal s => if two hi then none else some [.mov r (.var .ret) s.size]
    | .arr _ _ => none

/-- amd64_abi.c:857-920, what is emitted after the call. -/
def lowerResult (t : Ty) : Option (List Op) :=
  match cls t with
  | none => some [.mov (.var .res) (.gp 0) 8]
  | some (lo, hi) =>
    let r := if lo = .integer then .gp 0 else .fp 0
    match t with
    | .agg _ =>
      let r2 := if hi = .integer then .gp 2 else .fp 1
      some (.mov (.ind .res 0) r 8 :: if two hi then [.mov (.ind .res 8) r2 8] else [])
    | .scal s => if two hi then none else some [.mov (.var .res) r s.size]
    | .arr _ _ => none

end Nature.Abi.Sysv
