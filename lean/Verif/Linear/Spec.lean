import Verif.Linear.Lang

/-!
# What a function of the language does

A definitional interpreter for the statements of `Verif.Linear.Lang`, written from the language and
not from the compiler.  It says: operands are evaluated left to right and each is a value; `&&`,
`||` and `?:` skip what they do not need; `match` runs the first case one of whose conditions
holds; a block that is left in any way, by its end, `break`, `continue`, `return`, a value of a
`match`, or an error, first runs the `defer` blocks registered so far, the newest first, all of
them; the value of `return` is computed before the deferred blocks run; a failing call goes to the
nearest enclosing `try` or `catch`, or leaves the function with that error; a failing run time
operation outside a `try` ends the process; `throw` leaves the function.

Loops are bounded by a number of rounds `F`; running out of rounds is the outcome `timeout`.
`stuck` marks programs the type checker rejects.
-/
namespace Nature.Linear.Spec

open Nature.Linear

/-- The state of a running function: its variables and the world. -/
structure St (X : Ext) where
  vars : Nat → Val
  w : X.W

/-- The ways to leave a statement other than by reaching its end. -/
inductive Exit where
  | brk
  | cont
  | ret (v : Val)
  | retn (v : Option Val)
  | thrown (e : Val)
  | err (e : Val)
  | abort
  | timeout
  | stuck
  deriving DecidableEq

/-- Nothing of the program runs after this exit. -/
def Exit.final : Exit → Bool
  | .abort => true
  | .timeout => true
  | .stuck => true
  | _ => false

inductive Res (X : Ext) (α : Type) where
  | ok (a : α) (σ : St X)
  | exit (x : Exit) (σ : St X)

def Res.bind {X α β} (r : Res X α) (f : α → St X → Res X β) : Res X β :=
  match r with
  | .ok a σ => f a σ
  | .exit x σ => .exit x σ

def St.set {X} (σ : St X) (x : Nat) (v : Val) : St X :=
  { σ with vars := fun y => if y = x then v else σ.vars y }

/-- Leave a block with outcome `r`: run its deferred blocks, all of them.  A deferred block that
fails makes its failure the outcome. -/
def leave {X} : List (St X → Res X Unit) → Res X Unit → Res X Unit
  | [], r => r
  | d :: D, .ok _ σ => leave D (d σ)
  | d :: D, .exit x σ =>
    if x.final then .exit x σ
    else match d σ with
      | .ok _ σ' => leave D (.exit x σ')
      | .exit x' σ' => leave D (.exit x' σ')

/-- The truth of a condition. -/
def Res.test {X α} (r : Res X Val) (f : Bool → St X → Res X α) : Res X α :=
  r.bind fun v σ => match v with
    | .b t => f t σ
    | _ => .exit .stuck σ

/-- `break` and `continue` do not belong in the head of a loop. -/
def Res.noJump {X α} (r : Res X α) : Res X α :=
  match r with
  | .exit .brk σ => .exit .stuck σ
  | .exit .cont σ => .exit .stuck σ
  | r => r

/-- A loop with condition, body and update, for at most `n` rounds. -/
def loop {X} (cond : St X → Res X Val) (body upd : St X → Res X Unit) : Nat → St X → Res X Unit
  | 0, σ => .exit .timeout σ
  | n + 1, σ =>
    (cond σ).noJump.test fun t σ1 =>
      if t then
        match body σ1 with
        | .ok _ σ2 => ((upd σ2).noJump).bind fun _ σ3 => loop cond body upd n σ3
        | .exit .cont σ2 => ((upd σ2).noJump).bind fun _ σ3 => loop cond body upd n σ3
        | .exit .brk σ2 => .ok () σ2
        | .exit x σ2 => .exit x σ2
      else .ok () σ1

/-- A call. `caught` tells whether a `try` or `catch` encloses it. -/
def doCall (X : Ext) (f : Nat) (fail : Fail) (caught : Bool) (args : List Val) (σ : St X) :
    Res X Val :=
  match X.call f args none σ.w with
  | (v, none, w) => .ok v { σ with w := w }
  | (_, some e, w) =>
    match fail with
    | .plain => .exit .stuck σ
    | .errable => .exit (.err e) { σ with w := w }
    | .panics => .exit (if caught then .err e else .abort) { σ with w := w }

/-- The value of a `match` or `catch` whose chosen block ended with `r`. -/
def blockValue {X} (void : Bool) (dflt : Option Val) (r : Res X Unit) : Res X Val :=
  match r with
  | .ok _ σ =>
    if void then .ok (.o 0) σ
    else match dflt with
      | some d => .ok d σ
      | none => .exit .stuck σ
  | .exit (.ret v) σ => .ok v σ
  | .exit x σ => .exit x σ

mutual
def evalE (X : Ext) (F : Nat) : Expr → Bool → St X → Res X Val
  | .lit v, _, σ => .ok v σ
  | .var (.src x), _, σ => .ok (σ.vars x) σ
  | .var (.tmp _), _, σ => .exit .stuck σ
  | .arith o l r, ct, σ =>
    (evalE X F l ct σ).bind fun v σ1 => (evalE X F r ct σ1).bind fun w σ2 => .ok (X.arith o v w) σ2
  | .cmp k c l r, ct, σ =>
    (evalE X F l ct σ).bind fun v σ1 =>
      (evalE X F r ct σ1).bind fun w σ2 => .ok (.b (cmpVal X k c v w)) σ2
  | .and l r, ct, σ =>
    (evalE X F l ct σ).test fun t σ1 =>
      if t then (evalE X F r ct σ1).test fun u σ2 => .ok (.b u) σ2 else .ok (.b false) σ1
  | .or l r, ct, σ =>
    (evalE X F l ct σ).test fun t σ1 =>
      if t then .ok (.b true) σ1 else (evalE X F r ct σ1).test fun u σ2 => .ok (.b u) σ2
  | .tern c l r, ct, σ =>
    (evalE X F c ct σ).test fun t σ1 => if t then evalE X F l ct σ1 else evalE X F r ct σ1
  | .call f fail _ args, ct, σ =>
    (evalA X F args ct σ).bind fun vs σ1 => doCall X f fail ct vs σ1
  | .mtch void cases, ct, σ => evalC X F cases none void ct σ
  | .mtchS _ void k subject cases, ct, σ =>
    (evalE X F subject ct σ).bind fun v σ1 => evalC X F cases (some (k, v)) void ct σ1
  | .ctch void dflt e x body, ct, σ =>
    match evalE X F e true σ with
    | .exit (.err er) σ1 => blockValue void dflt (execB X F body ct [] (σ1.set x er))
    | r => r

/-- Arguments, left to right. -/
def evalA (X : Ext) (F : Nat) : Args → Bool → St X → Res X (List Val)
  | .nil, _, σ => .ok [] σ
  | .cons e rest, ct, σ =>
    (evalE X F e ct σ).bind fun v σ1 => (evalA X F rest ct σ1).bind fun vs σ2 => .ok (v :: vs) σ2

/-- Does one of the conditions of a case hold?  With a subject, a condition is a value to compare
with it. -/
def anyHolds (X : Ext) (F : Nat) : Args → Option (Kind × Val) → Bool → St X → Res X Bool
  | .nil, _, _, σ => .ok false σ
  | .cons e rest, sub, ct, σ =>
    (evalE X F e ct σ).bind fun v σ1 =>
      match sub, v with
      | some (k, u), v =>
        if cmpVal X k .ee v u then .ok true σ1 else anyHolds X F rest sub ct σ1
      | none, .b t => if t then .ok true σ1 else anyHolds X F rest sub ct σ1
      | none, _ => .exit .stuck σ1

/-- The first case that applies. -/
def evalC (X : Ext) (F : Nat) : Cases → Option (Kind × Val) → Bool → Bool → St X → Res X Val
  | .last true _ body, _, void, ct, σ => blockValue void none (execB X F body ct [] σ)
  | .last false conds body, sub, void, ct, σ =>
    (anyHolds X F conds sub ct σ).bind fun t σ1 =>
      if t then blockValue void none (execB X F body ct [] σ1) else .exit .stuck σ1
  | .cons conds body rest, sub, void, ct, σ =>
    (anyHolds X F conds sub ct σ).bind fun t σ1 =>
      if t then blockValue void none (execB X F body ct [] σ1)
      else evalC X F rest sub void ct σ1

def execS (X : Ext) (F : Nat) : Stmt → Bool → St X → Res X Unit
  | .expr e, ct, σ => (evalE X F e ct σ).bind fun _ σ1 => .ok () σ1
  | .set x e, ct, σ => (evalE X F e ct σ).bind fun v σ1 => .ok () (σ1.set x v)
  | .ite c t e, ct, σ =>
    (evalE X F c ct σ).test fun v σ1 =>
      if v then execB X F t ct [] σ1 else execB X F e ct [] σ1
  | .forC c b, ct, σ =>
    loop (evalE X F c ct) (execB X F b ct []) (fun σ => .ok () σ) F σ
  | .forT init c upd b, ct, σ =>
    ((execS X F init ct σ).noJump).bind fun _ σ1 =>
      loop (evalE X F c ct) (execB X F b ct []) (execS X F upd ct) F σ1
  | .brk, _, σ => .exit .brk σ
  | .cont, _, σ => .exit .cont σ
  | .retV, _, σ => .exit (.retn none) σ
  | .retE e, ct, σ => (evalE X F e ct σ).bind fun v σ1 => .exit (.retn (some v)) σ1
  | .ret e, ct, σ => (evalE X F e ct σ).bind fun v σ1 => .exit (.ret v) σ1
  | .throw e, ct, σ => (evalE X F e ct σ).bind fun v σ1 => .exit (.thrown v) σ1
  | .defer _, _, σ => .exit .stuck σ
  | .try b x h, ct, σ =>
    match execB X F b true [] σ with
    | .exit (.err er) σ1 =>
      match execB X F h ct [] (σ1.set x er) with
      -- the parser puts no `ret` there
      | .exit (.ret _) σ2 => .exit .stuck σ2
      | r => r
    | r => r

/-- The rest of a block whose deferred blocks so far are `D`, newest first. -/
def execB (X : Ext) (F : Nat) : Body → Bool → List (St X → Res X Unit) → St X → Res X Unit
  | .nil, _, D, σ => leave D (.ok () σ)
  | .cons (.defer d) rest, ct, D, σ => execB X F rest ct (execB X F d ct [] :: D) σ
  | .cons s rest, ct, D, σ =>
    match execS X F s ct σ with
    | .ok _ σ1 => execB X F rest ct D σ1
    | .exit x σ1 => leave D (.exit x σ1)
end

/-- The outcome of a call of the function. -/
inductive Outcome (X : Ext) where
  | returns (v : Option Val) (w : X.W)
  | fails (e : Val) (w : X.W)
  | aborts (w : X.W)
  | runs
  | stuck

/-- Run the function `body`. -/
def runFn (X : Ext) (F : Nat) (body : Body) (σ : St X) : Outcome X :=
  match execB X F body false [] σ with
  | .ok _ σ1 => .returns none σ1.w
  | .exit (.retn v) σ1 => .returns v σ1.w
  | .exit (.thrown e) σ1 => .fails e σ1.w
  | .exit (.err e) σ1 => .fails e σ1.w
  | .exit .abort σ1 => .aborts σ1.w
  | .exit .timeout _ => .runs
  | .exit _ _ => .stuck

/-! ## The programs the theorems are about

Each condition excludes one of the programs shown to go wrong in `Verif.Linear.Props`. -/

mutual
/-- The variables something can assign. -/
def asgE : Expr → List Nat
  | .lit _ => []
  | .var _ => []
  | .arith _ l r => asgE l ++ asgE r
  | .cmp _ _ l r => asgE l ++ asgE r
  | .and l r => asgE l ++ asgE r
  | .or l r => asgE l ++ asgE r
  | .tern c l r => asgE c ++ asgE l ++ asgE r
  | .call _ _ _ args => asgA args
  | .mtch _ cs => asgC cs
  | .mtchS _ _ _ s cs => asgE s ++ asgC cs
  | .ctch _ _ e x b => asgE e ++ x :: asgB b
def asgA : Args → List Nat
  | .nil => []
  | .cons e rest => asgE e ++ asgA rest
def asgC : Cases → List Nat
  | .last _ ks b => asgA ks ++ asgB b
  | .cons ks b rest => asgA ks ++ asgB b ++ asgC rest
def asgS : Stmt → List Nat
  | .expr e => asgE e
  | .set x e => x :: asgE e
  | .ite c t e => asgE c ++ asgB t ++ asgB e
  | .forC c b => asgE c ++ asgB b
  | .forT i c u b => asgS i ++ asgE c ++ asgS u ++ asgB b
  | .brk => []
  | .cont => []
  | .retV => []
  | .retE e => asgE e
  | .ret e => asgE e
  | .throw e => asgE e
  | .defer b => asgB b
  | .try b x h => asgB b ++ x :: asgB h
def asgB : Body → List Nat
  | .nil => []
  | .cons s rest => asgS s ++ asgB rest
end

mutual
/-- The `match` nodes with a subject. -/
def idsE : Expr → List Nat
  | .lit _ => []
  | .var _ => []
  | .arith _ l r => idsE l ++ idsE r
  | .cmp _ _ l r => idsE l ++ idsE r
  | .and l r => idsE l ++ idsE r
  | .or l r => idsE l ++ idsE r
  | .tern c l r => idsE c ++ idsE l ++ idsE r
  | .call _ _ _ args => idsA args
  | .mtch _ cs => idsC cs
  | .mtchS i _ _ s cs => i :: (idsE s ++ idsC cs)
  | .ctch _ _ e _ b => idsE e ++ idsB b
def idsA : Args → List Nat
  | .nil => []
  | .cons e rest => idsE e ++ idsA rest
def idsC : Cases → List Nat
  | .last _ ks b => idsA ks ++ idsB b
  | .cons ks b rest => idsA ks ++ idsB b ++ idsC rest
def idsS : Stmt → List Nat
  | .expr e => idsE e
  | .set _ e => idsE e
  | .ite c t e => idsE c ++ idsB t ++ idsB e
  | .forC c b => idsE c ++ idsB b
  | .forT i c u b => idsS i ++ idsE c ++ idsS u ++ idsB b
  | .brk => []
  | .cont => []
  | .retV => []
  | .retE e => idsE e
  | .ret e => idsE e
  | .throw e => idsE e
  | .defer b => idsB b
  | .try b _ h => idsB b ++ idsB h
def idsB : Body → List Nat
  | .nil => []
  | .cons s rest => idsS s ++ idsB rest
end

mutual
/-- What a deferred block may contain: no way out of the block (the analyzer forbids `return`,
`break`, `continue`, `throw` and `ret`), no call that can fail or that looks at the pending error
(`pl` tells the others), no `match` with a subject. -/
def safeE (pl : Nat → Bool) : Expr → Bool
  | .lit _ => true
  | .var _ => true
  | .arith _ l r => safeE pl l && safeE pl r
  | .cmp _ _ l r => safeE pl l && safeE pl r
  | .and l r => safeE pl l && safeE pl r
  | .or l r => safeE pl l && safeE pl r
  | .tern c l r => safeE pl c && safeE pl l && safeE pl r
  | .call f fl _ args => decide (fl = .plain) && pl f && safeA pl args
  | .mtch _ cs => safeC pl cs
  | .mtchS _ _ _ _ _ => false
  | .ctch _ _ e _ b => safeE pl e && safeB pl b
def safeA (pl : Nat → Bool) : Args → Bool
  | .nil => true
  | .cons e rest => safeE pl e && safeA pl rest
def safeC (pl : Nat → Bool) : Cases → Bool
  | .last _ ks b => safeA pl ks && safeB pl b
  | .cons ks b rest => safeA pl ks && safeB pl b && safeC pl rest
def safeS (pl : Nat → Bool) : Stmt → Bool
  | .expr e => safeE pl e
  | .set _ e => safeE pl e
  | .ite c t e => safeE pl c && safeB pl t && safeB pl e
  | .forC c b => safeE pl c && safeB pl b
  | .forT i c u b => safeS pl i && safeE pl c && safeS pl u && safeB pl b
  | .brk => false
  | .cont => false
  | .retV => false
  | .retE _ => false
  | .ret _ => false
  | .throw _ => false
  | .defer b => safeB pl b
  | .try b _ h => safeB pl b && safeB pl h
def safeB (pl : Nat → Bool) : Body → Bool
  | .nil => true
  | .cons s rest => safeS pl s && safeB pl rest
end

/-- Nothing evaluated after the operand `l` changes its value: either `l` is not a bare variable, or
`later` does not contain that variable. -/
def keeps (l : Expr) (later : List Nat) : Bool :=
  match l with
  | .var (.src x) => !later.contains x
  | .var (.tmp _) => false
  | _ => true

/-- A literal or a variable. -/
def atom : Expr → Bool
  | .lit _ => true
  | .var (.src _) => true
  | _ => false

def atoms : Args → Bool
  | .nil => true
  | .cons e rest => atom e && atoms rest

/-- A comparison of floats, compiled to a jump. -/
def fltJump : Expr → Bool
  | .cmp .f _ _ _ => true
  | _ => false

mutual
/-- No `ret` that ends the block around the statement. -/
def noRetS : Stmt → Bool
  | .ite _ t e => noRetB t && noRetB e
  | .forC _ b => noRetB b
  | .forT i _ u b => noRetS i && noRetS u && noRetB b
  | .ret _ => false
  | .try b _ h => noRetB b && noRetB h
  | _ => true
def noRetB : Body → Bool
  | .nil => true
  | .cons s rest => noRetS s && noRetB rest
end

mutual
/-- No such `ret` inside a `try` or a loop. -/
def calmS : Stmt → Bool
  | .ite _ t e => calmB t && calmB e
  | .forC _ b => noRetB b
  | .forT i _ u b => noRetS i && noRetS u && noRetB b
  | .try b _ h => noRetB b && calmB h
  | _ => true
def calmB : Body → Bool
  | .nil => true
  | .cons s rest => calmS s && calmB rest
end

mutual
/-- Programs without compiler temporaries, in which operands that are bare variables are not
assigned by the operands after them, `if` does not compare floats directly, the unchecked last case
of a `match` has plain conditions, `return x` does not return a variable assigned by a deferred
block (`A` contains those), deferred blocks are `safe`, the block of a `catch` with a default value
does not put `ret` into a `try` or a loop, and `ret` is inside a `match` or `catch` (`rt`). -/
def goodE (pl : Nat → Bool) (A : List Nat) (rt : Bool) : Expr → Bool
  | .lit _ => true
  | .var (.src _) => true
  | .var (.tmp _) => false
  | .arith _ l r => goodE pl A rt l && goodE pl A rt r && keeps l (asgE r)
  | .cmp _ _ l r => goodE pl A rt l && goodE pl A rt r && keeps l (asgE r)
  | .and l r => goodE pl A rt l && goodE pl A rt r
  | .or l r => goodE pl A rt l && goodE pl A rt r
  | .tern c l r => goodE pl A rt c && goodE pl A rt l && goodE pl A rt r
  | .call _ _ _ args => goodA pl A rt args
  | .mtch _ cs => goodC pl A cs
  | .mtchS _ _ _ s cs => goodE pl A rt s && goodC pl A cs
  | .ctch void dflt e _ b =>
    goodE pl A rt e && goodB pl A true b && (void || dflt.isNone || calmB b)
def goodA (pl : Nat → Bool) (A : List Nat) (rt : Bool) : Args → Bool
  | .nil => true
  | .cons e rest => goodE pl A rt e && goodA pl A rt rest && keeps e (asgA rest)
def goodK (pl : Nat → Bool) (A : List Nat) : Args → Bool
  | .nil => true
  | .cons e rest => goodE pl A true e && goodK pl A rest
def goodC (pl : Nat → Bool) (A : List Nat) : Cases → Bool
  | .last d ks b => (d || atoms ks) && goodB pl A true b
  | .cons ks b rest => goodK pl A ks && goodB pl A true b && goodC pl A rest
def goodS (pl : Nat → Bool) (A : List Nat) (rt : Bool) : Stmt → Bool
  | .expr e => goodE pl A rt e
  | .set _ e => goodE pl A rt e
  | .ite c t e => goodE pl A rt c && !fltJump c && goodB pl A rt t && goodB pl A rt e
  | .forC c b => goodE pl A rt c && goodB pl A rt b
  | .forT i c u b => goodS pl A rt i && goodE pl A rt c && goodS pl A rt u && goodB pl A rt b
  | .brk => true
  | .cont => true
  | .retV => true
  | .retE e => goodE pl A rt e && keeps e A
  | .ret e => rt && goodE pl A rt e
  | .throw e => goodE pl A rt e
  | .defer b => safeB pl b && goodB pl A false b && (asgB b).all A.contains
  | .try b _ h => goodB pl A rt b && goodB pl A rt h
def goodB (pl : Nat → Bool) (A : List Nat) (rt : Bool) : Body → Bool
  | .nil => true
  | .cons s rest => goodS pl A rt s && goodB pl A rt rest
end

/-- A function that neither fails nor notices a pending error: called while one is pending it does
the same and leaves the error pending. -/
def Insensitive (X : Ext) (f : Nat) : Prop :=
  ∀ args w, (X.call f args none w).2.1 = none ∧
    ∀ e, X.call f args (some e) w =
      ((X.call f args none w).1, some e, (X.call f args none w).2.2)

end Nature.Linear.Spec
