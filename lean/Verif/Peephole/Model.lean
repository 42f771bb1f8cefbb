import Verif.Peephole.Lir
/-!
# The peephole pass (model)

Model of src/peephole/peephole.h, arm64.c and amd64.c for one block.  An instruction that is changed in place is a new `Op`; the
branches of the fused operations for floating point that need a new temporary (an addend that is not a variable) are not modelled and
count, like failed assertions, as `none`.
-/
namespace Nature.Peephole

/-- Variables an operand uses (`set_operand_flag`, lir.h:632-694, for an input). -/
def useIn : Option Operand → List Nat
  | some (.var v _ _) => [v]
  | some (.mem _ uses) => uses
  | _ => []

/-- Variables used by an output: only those of an address. -/
def useOut : Option Operand → List Nat
  | some (.mem _ uses) => uses
  | _ => []

/-- All variables an instruction uses: `extract_op_operands(op, VAR, USE)`, lir.h:1384-1415. -/
def uses (op : Op) : List Nat := useOut op.output ++ useIn op.first ++ useIn op.second ++ useIn op.addend ++ op.args

/-- `peephole_build_use_count`, peephole.h:28-52. -/
def useCount : List Op → Nat → Nat
  | [], _ => 0
  | op :: ops, v => (uses op).count v + useCount ops v

/-- `peephole_can_remove_var`, peephole.h:75-92. -/
def canRemove (cnt : Nat → Nat) (live : List Nat) (v : Nat) : Bool := !live.contains v && decide (cnt v ≤ 1)

/-- `lir_operand_equal`, lir.h:1231-1270. -/
def same (a b : Option Operand) : Bool :=
  match a, b with
  | none, none => true
  | some (.var v _ _), some (.var w _ _) => v = w
  | some (.reg r), some (.reg q) => r = q
  | some (.mem k u), some (.mem l w) => k = l && u = w
  | _, _ => false

/-- `lir_can_mov_eliminable`, lir.h:1346-1373. -/
def eliminable : Code → Bool
  | .move | .add | .sub | .mul | .elim _ => true
  | _ => false

/-- A variable or a register. -/
def plain : Operand → Bool
  | .var .. | .reg _ => true
  | _ => false

/-- `peephole_move_elimination_match1`, arm64.c:82-125: the changed first instruction. -/
def match1 (cnt : Nat → Nat) (live : List Nat) (op1 op2 : Op) : Option Op :=
  if !eliminable op1.code then none
  else if op2.code ≠ .move then none
  else
    match op1.output, op2.first, op2.output with
    | some (.var t const _), some (.var u _ _), some out =>
      if !plain out then none
      else if const then none
      else if t ≠ u then none
      else if !canRemove cnt live t then none
      else some { op1 with output := some out }
    | _, _, _ => none

/-- `peephole_move_elimination_match2`, arm64.c:22-71: the changed second instruction. -/
def match2 (cnt : Nat → Nat) (live : List Nat) (op1 op2 : Op) : Option Op :=
  if op1.code ≠ .move then none
  else if !eliminable op2.code then none
  else
    match op1.first, op1.output with
    | some src, some (.var t c d) =>
      if !canRemove cnt live t then none
      else if same op2.second (some (.var t c d)) then
        if !same op2.output (some src) then none else some { op2 with second := some src }
      else if same op2.first (some (.var t c d)) then
        if !same op2.output (some src) then none else some { op2 with first := some src }
      else none
    | _, _ => none

/-- `is_float_var_const_two`, arm64.c:178-200 (the type of the variable is the type of the instruction). -/
def floatTwo (ty : Ty) : Option Operand → Bool
  | some (.var _ const two) => const && ty.float && two
  | _ => false

/-- `is_mov_imm_two`, arm64.c:205-228: the variable. -/
def movTwo (op : Op) : Option Operand :=
  if op.code ≠ .move then none
  else
    match op.first, op.output with
    | some (.imm n), some (.var v c d) => if n = 2 ∧ op.ty.float = false then some (.var v c d) else none
    | _, _ => none

/-- The integer part of `peephole_strength_reduction_mul2`, arm64.c:244-281: what the pair becomes. -/
def mul2Pair (cnt : Nat → Nat) (live : List Nat) (op mul : Op) : Option (List Op) :=
  match movTwo op with
  | none => none
  | some t =>
    if mul.code ≠ .mul then none
    else
      let other := if same mul.first (some t) then mul.second else if same mul.second (some t) then mul.first else none
      match other with
      | none => none
      | some o =>
        let add := { mul with code := .add, first := some o, second := some o }
        let keep := match t with | .var v _ _ => !canRemove cnt live v | _ => true
        some (if keep then [op, add] else [add])

/-- The rest of `peephole_strength_reduction_mul2`, arm64.c:283-306. -/
def mul2Float (op : Op) : Option Op :=
  if op.code ≠ .mul then none
  else if floatTwo op.ty op.first then some { op with code := .add, first := op.second }
  else if floatTwo op.ty op.second then some { op with code := .add, second := op.first }
  else none

/-- `SUB ra, imm` becomes `ADD ra, -imm`, arm64.c:355-372. -/
def negSub (op : Op) : Op :=
  match op.code, op.second with
  | .sub, some (.imm n) => { op with code := .add, second := some (.imm (-n)) }
  | _, _ => op

/-- The outcome of `fma`: no match (the next instruction may have changed), the fused instruction, or a failed assertion. -/
inductive Fma
  | no (next : Op)
  | fused (op : Op)
  | abort

/-- `peephole_fma_recognition`, arm64.c:332-460. -/
def fma (cnt : Nat → Nat) (live : List Nat) (mul next : Op) : Fma :=
  if mul.code ≠ .mul then .no next
  else
    match mul.output with
    | some (.var t c d) =>
      if next.code ≠ .add ∧ next.code ≠ .sub then .no next
      else if !canRemove cnt live t then .no next
      else
        let next := negSub next
        let out := some (Operand.var t c d)
        let left := same next.first out
        let other := if left then next.second else if same next.second out then next.first else none
        match other with
        | none => .no next
        | some o =>
          let code : Option Code :=
            if next.code = .add then some (if mul.ty.float then .fmadd else .madd)
            else if left then (if mul.ty.float then some .fnmsub else none)
            else some (if mul.ty.float then .fmsub else .msub)
          match code with
          | none => .no next
          | some code =>
            match mul.first, mul.second with
            | some (.var a ac ad), some (.var b bc bd) =>
              match o with
              | .var .. => .fused { next with code := code, first := some (.var a ac ad), second := some (.var b bc bd), addend := some o }
              | _ => if mul.ty.float then .abort else .no next
            | _, _ => .abort
    | _ => .no next

/-- One pass over the instructions, arm64.c:478-505: "changed" and the new list.  `n` bounds the number of turns. -/
def armPass (cnt : Nat → Nat) (live : List Nat) : Nat → List Op → Option (Bool × List Op)
  | 0, _ => none
  | _ + 1, [] => some (false, [])
  | n + 1, [op] =>
    match mul2Float op with
    | some op' => (armPass cnt live n []).map fun r => (true, op' :: r.2)
    | none => (armPass cnt live n []).map fun r => (r.1, op :: r.2)
  | n + 1, op1 :: op2 :: rest =>
    match fma cnt live op1 op2 with
    | .abort => none
    | .fused op => (armPass cnt live n rest).map fun r => (true, op :: r.2)
    | .no op2 =>
      match mul2Pair cnt live op1 op2 with
      | some ops => (armPass cnt live n rest).map fun r => (true, ops ++ r.2)
      | none =>
        match mul2Float op1 with
        | some op => (armPass cnt live n (op2 :: rest)).map fun r => (true, op :: r.2)
        | none =>
          match match1 cnt live op1 op2 with
          | some op => (armPass cnt live n rest).map fun r => (true, op :: r.2)
          | none =>
            match match2 cnt live op1 op2 with
            | some op => (armPass cnt live n rest).map fun r => (true, op :: r.2)
            | none => (armPass cnt live n (op2 :: rest)).map fun r => (r.1, op1 :: r.2)

/-- The iterations, arm64.c:470-509; the use counts are those of the start. -/
def armIter (cnt : Nat → Nat) (live : List Nat) : Nat → List Op → Option (List Op)
  | 0, ops => some ops
  | n + 1, ops =>
    match armPass cnt live (ops.length + 1) ops with
    | none => none
    | some (changed, ops') => if changed then armIter cnt live n ops' else some ops'

/-- `arm64_peephole_handle_block`, arm64.c:462-522. -/
def armBlock (live : List Nat) (ops : List Op) : Option (List Op) := armIter (useCount ops) live 5 ops

/-- `is_valid_lea_scale`, amd64.c:8-10. -/
def validScale (n : Int) : Bool := n = 1 || n = 2 || n = 4 || n = 8

/-- `peephole_can_remove_var` for the operand whose name is looked up, amd64.c:126-132: the name of a register is no variable, so it
has no uses. -/
def canRemoveOperand (cnt : Nat → Nat) (live : List Nat) : Operand → Bool
  | .var v _ _ => canRemove cnt live v
  | _ => true

/-- The end of `peephole_lea_fusion`, amd64.c:112-182: the instruction. -/
def leaOf (cnt : Nat → Nat) (live : List Nat) (mul : Op) (index : Operand) (scale : Int) (result : Operand) (add : Op) : Option Op :=
  match add.second, add.output with
  | some (.imm d), some (.var v c e) =>
    if !same (some result) (some (.var v c e)) && !canRemoveOperand cnt live result then none
    else if add.ty.float then none
    else
      let disp := if add.code = .sub then -d else d
      if disp < -2 ^ 31 ∨ 2 ^ 31 - 1 < disp then none
      else
        let code : Code := if scale = 2 then .lea true 1 disp else .lea false scale disp
        some ⟨code, mul.ty, some index, none, none, some (.var v c e), [], []⟩
  | _, _ => none

/-- `peephole_lea_fusion`, amd64.c:26-182: the instruction and the rest of the list. -/
def lea (cnt : Nat → Nat) (live : List Nat) : List Op → Option (Op × List Op)
  | mul :: next :: rest =>
    if mul.code ≠ .mul then none
    else
      match mul.second, mul.first, mul.output with
      | some (.imm scale), some (.var a ac ad), some (.var t tc td) =>
        if mul.ty.float then none
        else if !validScale scale then none
        else
          let index := Operand.var a ac ad
          let out := Operand.var t tc td
          if next.code = .add ∨ next.code = .sub then
            if same next.first (some out) then (leaOf cnt live mul index scale out next).map fun o => (o, rest) else none
          else if next.code = .move then
            if same next.first (some out) then
              if !canRemove cnt live t then none
              else
                match rest, next.output with
                | third :: rest, some res =>
                  if (third.code = .add ∨ third.code = .sub) ∧ same third.first (some res) then
                    (leaOf cnt live mul index scale res third).map fun o => (o, rest)
                  else none
                | _, _ => none
            else none
          else none
      | _, _, _ => none
  | _ => none

/-- One pass, amd64.c:197-215. -/
def amdPass (cnt : Nat → Nat) (live : List Nat) : Nat → List Op → Bool × List Op
  | 0, ops => (false, ops)
  | _ + 1, [] => (false, [])
  | n + 1, op :: ops =>
    match lea cnt live (op :: ops) with
    | some (o, rest) => (true, o :: (amdPass cnt live n rest).2)
    | none =>
      let r := amdPass cnt live n ops
      (r.1, op :: r.2)

/-- The iterations, amd64.c:190-217. -/
def amdIter (cnt : Nat → Nat) (live : List Nat) : Nat → List Op → List Op
  | 0, ops => ops
  | n + 1, ops =>
    let r := amdPass cnt live (ops.length + 1) ops
    if r.1 then amdIter cnt live n r.2 else r.2

/-- `amd64_peephole_handle_block`, amd64.c:184-227. -/
def amdBlock (live : List Nat) (ops : List Op) : List Op := amdIter (useCount ops) live 5 ops

end Nature.Peephole
