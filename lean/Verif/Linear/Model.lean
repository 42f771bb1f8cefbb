import Verif.Linear.Lang

/-!
# The lowering of control flow to LIR, and what LIR does

Models /repo/src/linear.c: the defer scopes and their unwinding (54-171), error checks (866-935),
comparison jumps (1545-1600), loops (1703-1759), `continue`, `break`, `ret`, `return` (1761-1802),
`if` (1804-1833), calls (2090-2180), short circuit and binary operators (2181-2317), `match`
(3594-3707), `catch` (3734-3782), `try` (3784-3816), `throw` (4031-4057), `?:` (4171-4211),
`linear_body` (4259-4271) and `linear_fndef` (4279-4349).

Simplifications: only local scalars; labels and temporaries are numbered by two counters instead of
one (`global_var_unique_count`, /repo/src/module.h:26-31); line and column numbers, safepoints,
`NOP_DEF`, and the `RET` marker of the return check are left out; a program the type checker rejects
(`break` outside a loop, a void operand) is a failure to compile here.
-/
namespace Nature.Linear

/-- Operands, /repo/src/lir.h (LIR_OPERAND_IMM, LIR_OPERAND_VAR). -/
inductive Opd where
  | imm (v : Val)
  | var (x : Name)
  deriving DecidableEq, Repr

/-- LIR operations, /repo/src/lir.h (lir_opcode_t).  `beq` is `BEE` with a constant on the left,
`bcmp` the other compare and branch opcodes, `cmp` the `SLT` … `SNE` family; `hasErr`, `hasPanic`,
`removeErr` and `throwErr` are the calls of the run time functions of those names. -/
inductive Instr where
  | label (l : Nat)
  | bal (l : Nat)
  | beq (v : Val) (a : Opd) (l : Nat)
  | bcmp (k : Kind) (c : Cmp) (a b : Opd) (l : Nat)
  | cmp (k : Kind) (c : Cmp) (a b : Opd) (d : Name)
  | arith (o : Nat) (a b : Opd) (d : Name)
  | move (d : Name) (a : Opd)
  | call (f : Nat) (args : List Opd) (d : Option Name)
  | hasErr (d : Name)
  | hasPanic (caught : Bool) (d : Name)
  | removeErr (d : Name)
  | throwErr (a : Opd)
  | retn (a : Option Opd)
  | fnEnd
  deriving Repr

/-! ## The machine that runs LIR -/

/-- The state of a function in LIR: its locals, the world, the error pending on the coroutine
(`co->has_error`, `co->error`) and the value of the last `RETURN`. -/
structure LSt (X : Ext) where
  env : Name → Val
  w : X.W
  err : Option Val
  rv : Option Val

/-- `run k l`: about to execute the operations `k`.  `crash` is a jump to a label that does not
exist, the end of the list, or a failed assertion of the run time. -/
inductive Cfg (X : Ext) where
  | run (k : List Instr) (l : LSt X)
  | done (l : LSt X)
  | aborted (l : LSt X)
  | crash

def LSt.set {X} (l : LSt X) (x : Name) (v : Val) : LSt X :=
  { l with env := fun y => if y = x then v else l.env y }

def Opd.val {X} (l : LSt X) : Opd → Val
  | .imm v => v
  | .var x => l.env x

/-- The operations from label `t` on. -/
def after : List Instr → Nat → Option (List Instr)
  | [], _ => none
  | .label l :: k, t => if l = t then some (.label l :: k) else after k t
  | _ :: k, t => after k t

def goto {X} (P : List Instr) (t : Nat) (l : LSt X) : Cfg X :=
  match after P t with
  | some k => .run k l
  | none => .crash

/-- One LIR operation.  `hasPanic`: /repo/runtime/nutils/nutils.c:729-766, `hasErr`: 768-792,
`removeErr`: 715-727, `throwErr`: 650-674 (whose assertion on `co->traces` fails when an error is
pending already). -/
def step (X : Ext) (P : List Instr) : List Instr → LSt X → Cfg X
  | [], _ => .crash
  | .label _ :: k, l => .run k l
  | .bal t :: _, l => goto P t l
  | .beq v a t :: k, l => if cmpVal X .s .ee v (a.val l) then goto P t l else .run k l
  | .bcmp kd c a b t :: k, l => if cmpVal X kd c (a.val l) (b.val l) then goto P t l else .run k l
  | .cmp kd c a b d :: k, l => .run k (l.set d (.b (cmpVal X kd c (a.val l) (b.val l))))
  | .arith o a b d :: k, l => .run k (l.set d (X.arith o (a.val l) (b.val l)))
  | .move d a :: k, l => .run k (l.set d (a.val l))
  | .call f args d :: k, l =>
    match X.call f (args.map (·.val l)) l.err l.w with
    | (v, e, w) =>
      match d with
      | none => .run k { l with err := e, w := w }
      | some x => .run k ({ l with err := e, w := w }.set x v)
  | .hasErr d :: k, l => .run k (l.set d (.b l.err.isSome))
  | .hasPanic caught d :: k, l =>
    if l.err.isSome && !caught then .aborted l else .run k (l.set d (.b l.err.isSome))
  | .removeErr d :: k, l =>
    match l.err with
    | some e => .run k ({ l with err := none }.set d e)
    | none => .crash
  | .throwErr a :: k, l =>
    match l.err with
    | none => .run k { l with err := some (a.val l) }
    | some _ => .crash
  | .retn a :: k, l => .run k { l with rv := a.map (·.val l) }
  | .fnEnd :: _, l => .done l

/-- Executions with their number of operations. -/
inductive Steps (X : Ext) (P : List Instr) : Nat → Cfg X → Cfg X → Prop
  | refl (c : Cfg X) : Steps X P 0 c c
  | head {k l m c} (h : Steps X P m (step X P k l) c) : Steps X P (m + 1) (.run k l) c

/-! ## The state of the compiler -/

/-- /repo/src/linear.c:53-59 (linear_defer_scope_t).  `defers` has the newest first. -/
structure Scope where
  defers : List Body
  cd : Nat
  bd : Nat
  rd : Nat
  kd : Nat

/-- The stacks of `m->current_closure`: `continue_labels`, `break_labels`, `ret_labels`,
`ret_targets`, `catch_error_labels` and `defer_scopes`, the top first. -/
structure Ctx where
  conts : List Nat
  brks : List Nat
  rets : List Nat
  rtg : List (Option Name)
  catches : List Nat
  scopes : List Scope

/-- What is counted up while compiling: labels, temporaries, and the rewritings of `match` nodes
already done (node and subject temporary). -/
structure CSt where
  lbl : Nat
  tmp : Nat
  seen : List (Nat × Nat)

/-- A piece of the compiler: it can fail, and appends operations (`OP_PUSH`). -/
def M (α : Type) : Type := CSt → Option (α × List Instr × CSt)

def M.pure {α} (a : α) : M α := fun c => some (a, [], c)

def M.bind {α β} (x : M α) (f : α → M β) : M β := fun c =>
  match x c with
  | none => none
  | some (a, k, c1) =>
    match f a c1 with
    | none => none
    | some (b, k', c2) => some (b, k ++ k', c2)

instance : Monad M where
  pure := M.pure
  bind := M.bind

def fail {α} : M α := fun _ => none

/-- `OP_PUSH`. -/
def emit (k : List Instr) : M Unit := fun c => some ((), k, c)

/-- `label_ident_with_unique`, /repo/src/module.h:26-31. -/
def freshL : M Nat := fun c => some (c.lbl, [], { c with lbl := c.lbl + 1 })

/-- `temp_var_operand`, /repo/src/lir.h:745-760. -/
def freshT : M Name := fun c => some (.tmp c.tmp, [], { c with tmp := c.tmp + 1 })

/-- The function's `end_label` and `error_label`, /repo/src/linear.c:4292-4293. -/
def endL : Nat := 0
def errL : Nat := 1

/-- /repo/src/linear.c:69-77 (linear_defer_scope_new). -/
def Scope.new (Γ : Ctx) : Scope :=
  { defers := [], cd := Γ.conts.length, bd := Γ.brks.length, rd := Γ.rets.length,
    kd := Γ.catches.length }

/-- /repo/src/linear.c:100-104 (linear_defer_register). -/
def register (Γ : Ctx) (d : Body) : Option Ctx :=
  match Γ.scopes with
  | [] => none
  | s :: rest => some { Γ with scopes := { s with defers := d :: s.defers } :: rest }

/-- The deferred blocks `linear_unwind_scopes` emits, in order: those of the scopes whose depth of
the kind `f` is at least `depth`, innermost scope first, newest block first.
/repo/src/linear.c:80-85, 110-147. -/
def pending (f : Scope → Nat) (depth : Nat) (scopes : List Scope) : List Body :=
  (scopes.filter fun s => decide (depth ≤ f s)).flatMap (·.defers)

/-- /repo/src/linear.c:149-151 (linear_unwind_all). -/
def pendingAll (scopes : List Scope) : List Body := scopes.flatMap (·.defers)

/-- /repo/src/linear.c:371-402 (linear_super_move), for scalars. -/
def superMove (tgt : Option Name) (o : Opd) : M (Option Opd) :=
  match tgt with
  | none => pure (some o)
  | some t => do emit [.move t o]; pure (some (.var t))

/-- `if (!target) target = temp_var_operand_with_alloc(…)`. -/
def target (tgt : Option Name) : M Name :=
  match tgt with
  | none => freshT
  | some t => pure t

/-- /repo/src/linear.c:43-50 (ast_op_to_if_alert): the jump around the body of an `if`. -/
def ifAlert : Cmp → Cmp
  | .lt => .ge
  | .le => .gt
  | .gt => .le
  | .ge => .lt
  | .ee => .ne
  | .ne => .ee

/-- /repo/src/linear.c:34-41 (ast_op_to_for_continue): the jump back to the body of a `for`. -/
def forContinue : Cmp → Cmp := id

/-- The condition of a case compared with the subject.  The node is rewritten in place, so a node
compiled again is rewritten again: `subs` are the subject temporaries of all the times so far.
/repo/src/linear.c:3640-3657. -/
def wrap (k : Kind) (cond : Expr) : List Nat → Expr
  | [] => cond
  | s :: rest =>
    rest.foldl (fun e s => .cmp .s .ee e (.var (.tmp s))) (.cmp k .ee cond (.var (.tmp s)))

/-- Is the operand a `LIR_OPERAND_VAR`? If not it is copied before a call,
/repo/src/linear.c:2119-2124. -/
def argOpd (o : Opd) : M Opd :=
  match o with
  | .var x => pure (.var x)
  | .imm v => do
    let t ← freshT
    emit [.move t (.imm v)]
    pure (.var t)

/-- An operand that has to be there. -/
def need (r : Option Opd) : M Opd :=
  match r with
  | some o => pure o
  | none => fail

/-- The top of a stack that has to be there (`LINEAR_ASSERTF`). -/
def top (l : List Nat) : M Nat :=
  match l with
  | [] => fail
  | x :: _ => pure x

/-- Record that match node `id` was rewritten with subject temporary `t`. -/
def see (id : Nat) (t : Name) : M (List Nat) := fun c =>
  match t with
  | .tmp s =>
    let seen := c.seen ++ [(id, s)]
    some ((seen.filter fun p => p.1 = id).map (·.2), [], { c with seen := seen })
  | .src _ => none

/-- The name of the error variable of a `catch` is a source variable. -/
abbrev errVar (x : Nat) : Name := .src x

/-- Where an error goes, /repo/src/linear.c:873-877, 907-911. -/
def errTarget (Γ : Ctx) : Nat :=
  match Γ.catches with
  | [] => errL
  | l :: _ => l

/-- Is the first operand of a comparison a string?  Then it is not a machine comparison,
/repo/src/linear.c:1547-1552. -/
def Kind.isStr : Kind → Bool
  | .str => true
  | _ => false

mutual
/-- /repo/src/linear.c:4248-4257 (linear_expr) and the functions in its table.  The first argument
bounds the recursion of the compiler, `tgt` is the `target` parameter (NULL is `none`). -/
def linE : Nat → Ctx → Option Name → Expr → M (Option Opd)
  | 0, _, _, _ => fail
  -- 3823-3915 (linear_literal)
  | _ + 1, _, tgt, .lit v => superMove tgt (.imm v)
  -- 1093-1094 (linear_ident, a local)
  | _ + 1, _, tgt, .var x => superMove tgt (.var x)
  -- 2227-2317 (linear_binary)
  | n + 1, Γ, tgt, .arith o l r => do
    let t ← target tgt
    let a ← linE n Γ none l
    let a ← need a
    let b ← linE n Γ none r
    let b ← need b
    emit [.arith o a b t]
    pure (some (.var t))
  | n + 1, Γ, tgt, .cmp k c l r => do
    let t ← target tgt
    let a ← linE n Γ none l
    let a ← need a
    let b ← linE n Γ none r
    let b ← need b
    emit [.cmp k c a b t]
    pure (some (.var t))
  -- 2204-2225 (linear_logical_and)
  | n + 1, Γ, tgt, .and l r => do
    let t ← target tgt
    let e ← freshL
    let a ← linE n Γ none l
    let a ← need a
    emit [.move t a, .beq (.b false) (.var t) e]
    let b ← linE n Γ none r
    let b ← need b
    emit [.move t b, .label e]
    pure (some (.var t))
  -- 2181-2202 (linear_logical_or)
  | n + 1, Γ, tgt, .or l r => do
    let t ← target tgt
    let e ← freshL
    let a ← linE n Γ none l
    let a ← need a
    emit [.move t a, .beq (.b true) (.var t) e]
    let b ← linE n Γ none r
    let b ← need b
    emit [.move t b, .label e]
    pure (some (.var t))
  -- 4171-4211 (linear_ternary), the bool case
  | n + 1, Γ, tgt, .tern c l r => do
    let t ← target tgt
    let le ← freshL
    let ln ← freshL
    let a ← linE n Γ none c
    let a ← need a
    emit [.beq (.b false) a le]
    let x ← linE n Γ none l
    let x ← need x
    emit [.move t x, .bal ln, .label le]
    let y ← linE n Γ none r
    let y ← need y
    emit [.move t y, .label ln]
    pure (some (.var t))
  -- 1983-2180 (linear_call) with 866-935 (linear_has_panic, linear_has_error)
  | n + 1, Γ, tgt, .call f fl void args => do
    let os ← linA n Γ args
    if void then
      emit [.call f os none]
      linFail n Γ fl
      match tgt with
      | none => pure none
      | some _ => fail
    else
      let t ← freshT
      emit [.call f os (some t)]
      linFail n Γ fl
      superMove tgt (.var t)
  -- 3594-3707 (linear_match_expr) without subject
  | n + 1, Γ, tgt, .mtch void cases => do
    let ls ← freshL
    emit [.label ls]
    if void then
      let le ← freshL
      linC n { Γ with rets := le :: Γ.rets, rtg := none :: Γ.rtg } none le cases
      emit [.label le]
      match tgt with
      | none => pure none
      | some _ => fail
    else
      let t ← target tgt
      let le ← freshL
      linC n { Γ with rets := le :: Γ.rets, rtg := some t :: Γ.rtg } none le cases
      emit [.label le]
      pure (some (.var t))
  -- … with subject
  | n + 1, Γ, tgt, .mtchS id void k subject cases => do
    let ls ← freshL
    emit [.label ls]
    if void then
      let le ← freshL
      let s ← freshT
      let _ ← linE n { Γ with rets := le :: Γ.rets, rtg := none :: Γ.rtg } (some s) subject
      let subs ← see id s
      linC n { Γ with rets := le :: Γ.rets, rtg := none :: Γ.rtg } (some (k, subs)) le cases
      emit [.label le]
      match tgt with
      | none => pure none
      | some _ => fail
    else
      let t ← target tgt
      let le ← freshL
      let s ← freshT
      let _ ← linE n { Γ with rets := le :: Γ.rets, rtg := some t :: Γ.rtg } (some s) subject
      let subs ← see id s
      linC n { Γ with rets := le :: Γ.rets, rtg := some t :: Γ.rtg } (some (k, subs)) le cases
      emit [.label le]
      pure (some (.var t))
  -- 3734-3782 (linear_catch_expr)
  | n + 1, Γ, tgt, .ctch void dflt e x body => do
    let lc ← freshL
    let le ← freshL
    if void then
      let _ ← linE n { Γ with catches := lc :: Γ.catches } none e
      emit [.bal le, .label lc, .removeErr (errVar x)]
      linB n { Γ with rets := le :: Γ.rets, rtg := none :: Γ.rtg } body
      emit [.label le]
      match tgt with
      | none => pure none
      | some _ => fail
    else
      let t ← target tgt
      let _ ← linE n { Γ with catches := lc :: Γ.catches } (some t) e
      emit [.bal le, .label lc]
      match dflt with
      | some d => emit [.move t (.imm d)]
      | none => pure ()
      emit [.removeErr (errVar x)]
      linB n { Γ with rets := le :: Γ.rets, rtg := some t :: Γ.rtg } body
      emit [.label le]
      pure (some (.var t))

/-- The check after a call: 902-935 (linear_has_error), 866-899 (linear_has_panic), with
`linear_bal_error` (168-171). -/
def linFail : Nat → Ctx → Fail → M Unit
  | 0, _, _ => fail
  | _ + 1, _, .plain => pure ()
  | n + 1, Γ, .errable => do
    let t ← freshT
    let l1 ← freshL
    let l2 ← freshL
    emit [.hasErr t, .beq (.b true) (.var t) l1, .bal l2, .label l1]
    unw n Γ (pending (·.kd) Γ.catches.length Γ.scopes)
    emit [.bal (errTarget Γ), .label l2]
  | n + 1, Γ, .panics => do
    let t ← freshT
    let l1 ← freshL
    let l2 ← freshL
    emit [.hasPanic (!Γ.catches.isEmpty) t, .beq (.b true) (.var t) l1, .bal l2, .label l1]
    unw n Γ (pending (·.kd) Γ.catches.length Γ.scopes)
    emit [.bal (errTarget Γ), .label l2]

/-- The arguments of a call, 2113-2126. -/
def linA : Nat → Ctx → Args → M (List Opd)
  | 0, _, _ => fail
  | _ + 1, _, .nil => pure []
  | n + 1, Γ, .cons e rest => do
    let o ← linE n Γ none e
    let o ← need o
    let o ← argOpd o
    let os ← linA n Γ rest
    pure (o :: os)

/-- The conditions of one case, 3636-3664. -/
def linK : Nat → Ctx → Option (Kind × List Nat) → Nat → Args → M Unit
  | 0, _, _, _, _ => fail
  | _ + 1, _, _, _, .nil => pure ()
  | n + 1, Γ, sub, lh, .cons e rest => do
    let o ← linE n Γ none (match sub with | none => e | some (k, subs) => wrap k e subs)
    let o ← need o
    emit [.beq (.b true) o lh]
    linK n Γ sub lh rest

/-- The cases of a `match`, 3623-3697.  The last case is not checked. -/
def linC : Nat → Ctx → Option (Kind × List Nat) → Nat → Cases → M Unit
  | 0, _, _, _, _ => fail
  | n + 1, Γ, _, le, .last _ _ body => do
    let lh ← freshL
    let lhe ← freshL
    emit [.label lh]
    linB n Γ body
    emit [.bal le, .label lhe]
  | n + 1, Γ, sub, le, .cons conds body rest => do
    let lh ← freshL
    let lhe ← freshL
    linK n Γ sub lh conds
    emit [.bal lhe, .label lh]
    linB n Γ body
    emit [.bal le, .label lhe]
    linC n Γ sub le rest

/-- The condition of an `if`: jump to `l` when it does not hold; of a `for`: jump to `l` when it
holds.  1545-1600 (linear_cmp_neg). -/
def linJ : Nat → Ctx → Expr → Nat → Bool → M Unit
  | 0, _, _, _, _ => fail
  | n + 1, Γ, .cmp k c l r, t, isIf =>
    if k.isStr then do
      let o ← linE n Γ none (.cmp k c l r)
      let o ← need o
      emit [.beq (.b (!isIf)) o t]
    else do
      let a ← linE n Γ none l
      let a ← need a
      let b ← linE n Γ none r
      let b ← need b
      emit [.bcmp k (if isIf then ifAlert c else forContinue c) a b t]
  | n + 1, Γ, e, t, isIf => do
    let o ← linE n Γ none e
    let o ← need o
    emit [.beq (.b (!isIf)) o t]

/-- /repo/src/linear.c:4060-4164 (linear_stmt). -/
def linS : Nat → Ctx → Stmt → M Unit
  | 0, _, _ => fail
  -- 1487-1489 (linear_expr_fake)
  | n + 1, Γ, .expr e => do
    let _ ← linE n Γ none e
  -- 1334-1344 (linear_ident_assign), 1472-1485 (linear_vardef)
  | n + 1, Γ, .set x e => do
    let o ← linE n Γ none e
    let o ← need o
    emit [.move (.src x) o]
  -- 1804-1833 (linear_if)
  | n + 1, Γ, .ite c t e => do
    let lk ← freshL
    let le ← freshL
    let la ← freshL
    match e with
    | .nil =>
      linJ n Γ c le true
      emit [.label lk]
      linB n Γ t
      emit [.bal le, .label le]
    | .cons s rest =>
      linJ n Γ c la true
      emit [.label lk]
      linB n Γ t
      emit [.bal le, .label la]
      linB n Γ (.cons s rest)
      emit [.label le]
  -- 1703-1729 (linear_for_cond)
  | n + 1, Γ, .forC c b => do
    let ls ← freshL
    let lk ← freshL
    let lc ← freshL
    let le ← freshL
    emit [.label ls, .bal lc, .label lk]
    linB n { Γ with conts := lc :: Γ.conts, brks := le :: Γ.brks } b
    emit [.label lc]
    linJ n { Γ with conts := lc :: Γ.conts, brks := le :: Γ.brks } c lk false
    emit [.label le]
  -- 1731-1759 (linear_for_tradition)
  | n + 1, Γ, .forT init c upd b => do
    let ls ← freshL
    let lu ← freshL
    let lk ← freshL
    let lc ← freshL
    let le ← freshL
    emit [.label ls]
    linS n { Γ with conts := lu :: Γ.conts, brks := le :: Γ.brks } init
    emit [.bal lc, .label lk]
    linB n { Γ with conts := lu :: Γ.conts, brks := le :: Γ.brks } b
    emit [.label lu]
    linS n { Γ with conts := lu :: Γ.conts, brks := le :: Γ.brks } upd
    emit [.label lc]
    linJ n { Γ with conts := lu :: Γ.conts, brks := le :: Γ.brks } c lk false
    emit [.label le]
  -- 1769-1775 (linear_break)
  | n + 1, Γ, .brk => do
    let l ← top Γ.brks
    unw n Γ (pending (·.bd) Γ.brks.length Γ.scopes)
    emit [.bal l]
  -- 1761-1767 (linear_continue)
  | n + 1, Γ, .cont => do
    let l ← top Γ.conts
    unw n Γ (pending (·.cd) Γ.conts.length Γ.scopes)
    emit [.bal l]
  -- 1793-1802 (linear_return)
  | n + 1, Γ, .retV => do
    unw n Γ (pendingAll Γ.scopes)
    emit [.retn none, .bal endL]
  | n + 1, Γ, .retE e => do
    let o ← linE n Γ none e
    let o ← need o
    unw n Γ (pendingAll Γ.scopes)
    emit [.retn (some o), .bal endL]
  -- 1777-1791 (linear_ret)
  | n + 1, Γ, .ret e => do
    let l ← top Γ.rets
    match Γ.rtg with
    | [] => pure ()
    | t :: _ => do
      let _ ← linE n Γ t e
    unw n Γ (pending (·.rd) Γ.rets.length Γ.scopes)
    emit [.bal l]
  -- 4031-4057 (linear_throw)
  | n + 1, Γ, .throw e => do
    let o ← linE n Γ none e
    let o ← need o
    let t ← freshT
    emit [.move t o, .throwErr (.var t)]
    unw n Γ (pendingAll Γ.scopes)
    emit [.retn none, .bal endL]
  -- a `defer` is a statement of a block, see linL
  | _ + 1, _, .defer _ => fail
  -- 3784-3816 (linear_try_catch_stmt)
  | n + 1, Γ, .try b x h => do
    let lc ← freshL
    let le ← freshL
    linB n { Γ with catches := lc :: Γ.catches } b
    emit [.bal le, .label lc, .removeErr (errVar x)]
    linB n { Γ with rets := le :: Γ.rets } h
    emit [.label le]

/-- /repo/src/linear.c:4259-4271 (linear_body) with 87-98 (entering and leaving a scope). -/
def linB : Nat → Ctx → Body → M Unit
  | 0, _, _ => fail
  | n + 1, Γ, b => linL n { Γ with scopes := Scope.new Γ :: Γ.scopes } b

/-- The statements of a block and the end of its scope. -/
def linL : Nat → Ctx → Body → M Unit
  | 0, _, _ => fail
  | n + 1, Γ, .nil =>
    match Γ.scopes with
    | [] => fail
    | s :: rest => unw n { Γ with scopes := rest } s.defers
  | n + 1, Γ, .cons (.defer d) rest =>
    match register Γ d with
    | none => fail
    | some Γ' => linL n Γ' rest
  | n + 1, Γ, .cons s rest => do
    linS n Γ s
    linL n Γ rest

/-- Emit deferred blocks, /repo/src/linear.c:80-85, 106-108. -/
def unw : Nat → Ctx → List Body → M Unit
  | 0, _, _ => fail
  | _ + 1, _, [] => pure ()
  | n + 1, Γ, d :: D => do
    linB n Γ d
    unw n Γ D
end

/-- A function starts with empty stacks. -/
def Ctx.empty : Ctx :=
  { conts := [], brks := [], rets := [], rtg := [], catches := [], scopes := [] }

/-- /repo/src/linear.c:4279-4349 (linear_fndef), from `linear_body` on. -/
def linFn (n : Nat) (b : Body) : M Unit := do
  linB n Ctx.empty b
  emit [.bal endL, .label errL, .retn none, .bal endL, .label endL, .fnEnd]

/-- The operations of a function, `none` if the compiler needs a deeper recursion than `n` or gives
up. -/
def compile (n : Nat) (b : Body) : Option (List Instr) :=
  match linFn n b { lbl := 2, tmp := 0, seen := [] } with
  | none => none
  | some (_, k, _) => some k

/-- A call of the compiled function: the locals are `env`, no error is pending. -/
def start {X : Ext} (P : List Instr) (env : Name → Val) (w : X.W) : Cfg X :=
  .run P { env := env, w := w, err := none, rv := none }

end Nature.Linear
