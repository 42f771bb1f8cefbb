import Verif.Alloc.Spec
/-
Straight-line code before and after register allocation: what the operations of a function do with
variables, and what they do with registers and the frame once `replace_virtual_register`
(src/register/interval.c:1927-1977) has put places for variables and the moves of
`closure_insert_mov` (src/register/interval.c:434-485) stand between the operations.
-/
namespace Nature.Alloc
open Nature.Ranges (Range Covers Sorted NonEmpty)

/-- A value: its bytes. -/
abbrev Val := List Nat

/-- An operation: it reads variables, may define one, and may destroy registers (a call). -/
structure Op where
  ins : List Nat
  out : Option Nat
  f : List Val → Val
  clob : List Nat

/-- The operations by id. -/
abbrev Code := Int → Option Op

/-- What an observer sees: the operands of every operation. -/
abbrev Trace := List (Int × List Val)

/-! ### before -/

/-- One position of the original code. -/
def srcStep (c : Code) (p : Int) (env : Nat → Val) : (Nat → Val) × Trace :=
  match c p with
  | none => (env, [])
  | some o =>
    match o.out with
    | none => (env, [(p, o.ins.map env)])
    | some d => (fun k => if k = d then o.f (o.ins.map env) else env k, [(p, o.ins.map env)])

/-- The positions `p + 1`, …, `p + n` of the original code. -/
def srcRun (c : Code) (p : Int) : Nat → (Nat → Val) → (Nat → Val) × Trace
  | 0, env => (env, [])
  | n + 1, env =>
    let r := srcStep c (p + 1) env
    let q := srcRun c (p + 1) n r.1
    (q.1, r.2 ++ q.2)

/-! ### after -/

/-- Registers and frame. -/
structure Mach where
  regs : Nat → Val
  frame : Int → Nat

/-- Read a place. -/
def Mach.read (m : Mach) : Home → Val
  | .reg r => m.regs r
  | .stack off n => (List.range n.toNat).map fun (i : Nat) => m.frame (off + (i : Int))
  | .again => []

/-- Write a place. -/
def Mach.write (m : Mach) (v : Val) : Home → Mach
  | .reg r => { m with regs := fun j => if j = r then v else m.regs j }
  | .stack off _ =>
    { m with frame := fun a => if off ≤ a ∧ a < off + v.length then v.getD (a - off).toNat 0 else m.frame a }
  | .again => m

/-- The variable of a move.  Its operands are variables of the parts, which
`replace_virtual_register` looks up through the parent (interval.c:1938-1947). -/
def moveVar (F : Func) (s : St) (m : Move) : Nat := (s.heap m.src).parent.getD m.src - F.cfg.nregs

/-- The places an operation reads. -/
def places (F : Func) (s : St) (p : Int) (isInput : Bool) : List Nat → Option (List Home)
  | [] => some []
  | k :: ks =>
    match place F s k p isInput, places F s p isInput ks with
    | some h, some hs => some (h :: hs)
    | _, _ => none

/-- The operation at `p` on the machine: read the operands, destroy registers (`junk` is what they
hold afterwards), write the result. -/
def dstOp (F : Func) (s : St) (c : Code) (junk : Int → Nat → Val) (p : Int) (m : Mach) :
    Option (Mach × Trace) :=
  match c p with
  | none => some (m, [])
  | some o =>
    match places F s p true o.ins with
    | none => none
    | some hs =>
      let xs := hs.map m.read
      let m1 : Mach := { m with regs := fun r => if r ∈ o.clob then junk p r else m.regs r }
      match o.out with
      | none => some (m1, [(p, xs)])
      | some d =>
        match place F s d p false with
        | none => none
        | some h => some (m1.write (o.f xs) h, [(p, xs)])

/-- The moves of a position: where from and where to. -/
def movePlaces (F : Func) (s : St) (p : Int) : List Move → Option (List (Home × Home))
  | [] => some []
  | m :: ms =>
    match movePlaces F s p ms with
    | none => none
    | some l =>
      if m.pos = p then
        match place F s (moveVar F s m) p true, place F s (moveVar F s m) p false with
        | some a, some b => some ((a, b) :: l)
        | _, _ => none
      else some l

/-- A parallel move (C36 is about its sequential form): the sources are read before anything is
written. -/
def doMoves (m : Mach) (l : List (Home × Home)) : Mach :=
  (l.map fun x => (m.read x.1, x.2)).foldl (fun m x => m.write x.1 x.2) m

/-- One position of the code after register allocation: `block_insert_mov` puts the moves of a
position behind the operation with that id (interval.c:434-470). -/
def dstStep (F : Func) (s : St) (c : Code) (junk : Int → Nat → Val) (p : Int) (m : Mach) :
    Option (Mach × Trace) :=
  match dstOp F s c junk p m with
  | none => none
  | some (m1, t) =>
    match movePlaces F s p s.moves with
    | none => none
    | some l => some (doMoves m1 l, t)

/-- The positions `p + 1`, …, `p + n` after register allocation. -/
def dstRun (F : Func) (s : St) (c : Code) (junk : Int → Nat → Val) (p : Int) :
    Nat → Mach → Option (Mach × Trace)
  | 0, m => some (m, [])
  | n + 1, m =>
    match dstStep F s c junk (p + 1) m with
    | none => none
    | some (m1, t) =>
      match dstRun F s c junk (p + 1) n m1 with
      | none => none
      | some (m2, t2) => some (m2, t ++ t2)

/-! ### what is assumed about the code -/

/-- The live ranges are those of the code between `a` and `b`: an operand is live before the
operation that reads it and at the one that defines it, a variable becomes live only where it is
defined, and registers an operation destroys are taken there. -/
structure Fits (F : Func) (c : Code) (a b : Int) : Prop where
  reads : ∀ p, a < p → p ≤ b → ∀ o, c p = some o → ∀ k ∈ o.ins, ∃ v, F.vars[k]? = some v ∧ Live v (p - 1)
  defs : ∀ p, a < p → p ≤ b → ∀ o, c p = some o → ∀ d, o.out = some d →
    ∃ v, F.vars[d]? = some v ∧ Live v p ∧ ∀ xs, ((o.f xs).length : Int) = v.size
  flow : ∀ p, a < p → p ≤ b → ∀ k v, F.vars[k]? = some v → Live v p → ¬ Live v (p - 1) →
    ∃ o, c p = some o ∧ o.out = some k
  clob : ∀ p, a < p → p ≤ b → ∀ o, c p = some o → ∀ r ∈ o.clob, Taken F r p
  plain : ∀ v ∈ F.vars, v.preset = 0 ∧ v.constFloat = false

/-- No move that follows an operation with the same id needs what that operation overwrites. -/
def Calm (F : Func) (s : St) (c : Code) : Prop :=
  ∀ m ∈ s.moves, ∀ o, c m.pos = some o → o.out ≠ some (moveVar F s m) ∧
    ∀ h, place F s (moveVar F s m) m.pos true = some h →
      (∀ r ∈ o.clob, h ≠ .reg r) ∧
      (∀ d h', o.out = some d → place F s d m.pos false = some h' → Apart h h')

/-- Every variable that is live at `p` is in its place. -/
def Holds (F : Func) (s : St) (p : Int) (env : Nat → Val) (m : Mach) : Prop :=
  ∀ k v, F.vars[k]? = some v → Live v p → ((env k).length : Int) = v.size ∧
    ∃ h, place F s k p false = some h ∧ m.read h = env k

end Nature.Alloc
