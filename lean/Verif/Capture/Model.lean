import Verif.Capture.Spec

/-
Names and closures in the compiler's analyzer: src/semantic/analyzer.c.
-/

namespace Nature.Capture

/-- `symbol_type_t`, the three kinds a local name can have. -/
inductive Kind where
  | var | fn | const
  deriving DecidableEq, Repr

/-- `local_ident_t`, src/types.h:124-131.  The unique name is the source name followed by a
counter, so the counter alone stands for it.  `is_capture` is kept apart, as the set `marked` of
the state: the flag belongs to one local name, and local names have unique names of their own. -/
structure Local where
  name : Name
  id : Nat
  kind : Kind
  depth : Nat
  deriving DecidableEq, Repr

/-- `free_ident_t`, src/types.h:116-122.  `env_index` means nothing when `is_local` is set. -/
structure Free where
  isLocal : Bool
  envIndex : Nat
  id : Nat
  kind : Kind
  deriving DecidableEq, Repr

/-- `analyzer_fndef_t`, src/types.h:136-147, with the latest local name first.  `free_table` is
the map from names to the entries of `frees` and is not kept separately. -/
structure Frame where
  locals : List Local
  depth : Nat
  frees : List Free
  deriving DecidableEq, Repr

/-- What the analyzer changes: `var_unique_count` of the module, the captured locals, the
variables with `be_capture` set, and the functions being analysed, innermost first
(`analyzer_current` and its `parent`s). -/
structure State where
  next : Nat
  marked : List Nat
  heap : List Nat
  frames : List Frame
  deriving DecidableEq, Repr

/-- One element of `capture_exprs`: a variable of the function around, or a place of its
environment. -/
inductive Cap where
  | var (id : Nat)
  | env (index : Nat)
  deriving DecidableEq, Repr

/-- What a use of a name is rewritten to. -/
inductive Ref where
  /-- an identifier with the unique name of a local -/
  | name (id : Nat)
  /-- `AST_EXPR_ENV_ACCESS` -/
  | env (index : Nat)
  /-- unchanged by the local rules -/
  | global (x : Name)
  deriving DecidableEq, Repr

/-- The analysed body. -/
inductive Out where
  | nil
  | use (r : Ref) (k : Out)
  | decl (id : Nat) (k : Out)
  | block (b : Out) (k : Out)
  | fn (caps : List Cap) (b : Out) (k : Out)
  deriving DecidableEq, Repr

inductive Res (α : Type) where
  | ok (a : α)
  /-- `redeclare ident '%s'` -/
  | redeclared
  /-- a failed assertion of the compiler -/
  | abort
  deriving DecidableEq, Repr

def Res.bind {α β : Type} : Res α → (α → Res β) → Res β
  | .ok a, f => f a
  | .redeclared, _ => .redeclared
  | .abort, _ => .abort

/-- `(int8_t) i` for an index, src/semantic/analyzer.c:1450, 1467, 1476. -/
def toI8 (i : Nat) : Int :=
  if i % 256 < 128 then (i % 256 : Nat) else (i % 256 : Nat) - 256

/-- `analyzer_push_free`, src/semantic/analyzer.c:1424-1442. -/
def pushFree (f : Frame) (isLocal : Bool) (index id : Nat) (kind : Kind) : Frame × Nat :=
  match f.frees.findIdx? (fun e => e.id = id) with
  | some i => (f, i)
  | none => ({ f with frees := f.frees ++ [⟨isLocal, index, id, kind⟩] }, f.frees.length)

/-- What `analyzer_resolve_free` tells: whether a name was found (then `*ident` and `*type` are
set), and the index returned. -/
structure Hit where
  index : Int
  id : Nat
  kind : Kind
  deriving DecidableEq, Repr

def lookup (x : Name) (ls : List Local) : Option Local := ls.find? (fun l => l.name = x)

/-- `analyzer_resolve_free`, src/semantic/analyzer.c:1450-1480.  The list is the current function
and its parents. -/
def resolveFree (x : Name) : List Frame → List Frame × Option Hit
  | [] => ([], none)
  | f :: ps =>
    match ps with
    | [] => ([f], none)
    | p :: rest =>
      match lookup x p.locals with
      | some l =>
        if l.kind = .fn then (f :: p :: rest, some ⟨-1, l.id, l.kind⟩)
        else
          let r := pushFree f true 0 l.id l.kind
          (r.1 :: p :: rest, some ⟨toI8 r.2, l.id, l.kind⟩)
      | none =>
        match resolveFree x (p :: rest) with
        | (ps', some h) =>
          if 0 ≤ h.index then
            let r := pushFree f false h.index.toNat h.id h.kind
            (r.1 :: ps', some ⟨toI8 r.2, h.id, h.kind⟩)
          else (f :: ps', some ⟨-1, h.id, h.kind⟩)
        | (ps', none) => (f :: ps', none)

/-- `analyzer_local_ident` and the end of `analyzer_ident`, src/semantic/analyzer.c:1483-1603.
When a variable was found but the index came back negative, the name has been replaced by the
unique name already; `local_ident_new` has entered that one into the symbol table, where
`analyzer_as_star_or_builtin_ident` (1546-1552) finds it, so it is taken as it is. -/
def ident (x : Name) (s : State) : Ref × State :=
  match s.frames with
  | [] => (.global x, s)
  | f :: _ =>
    match lookup x f.locals with
    | some l => (.name l.id, s)
    | none =>
      match resolveFree x s.frames with
      | (fs, none) => (.global x, { s with frames := fs })
      | (fs, some h) =>
        (if h.kind = .var ∧ 0 ≤ h.index then .env h.index.toNat else .name h.id,
         { s with frames := fs, marked := h.id :: s.marked })

/-- `local_ident_new`, src/semantic/analyzer.c:684-702, in the current function. -/
def localNew (kind : Kind) (x : Name) (s : State) : State :=
  match s.frames with
  | [] => s
  | f :: fs =>
    { s with next := s.next + 1,
             frames := { f with locals := ⟨x, s.next, kind, f.depth⟩ :: f.locals } :: fs }

/-- The loop of `analyzer_redeclare_check`, src/semantic/analyzer.c:990-1002. -/
def redeclaredIn (x : Name) (d : Nat) : List Local → Bool
  | [] => false
  | l :: ls => if l.depth < d then false else if l.name = x then true else redeclaredIn x d ls

/-- `analyzer_redeclare_check`, src/semantic/analyzer.c:984-1005. -/
def redeclared (x : Name) (s : State) : Bool :=
  match s.frames with
  | [] => false
  | f :: _ => if f.depth = 0 then false else redeclaredIn x f.depth f.locals

/-- `analyzer_begin_scope`, src/semantic/analyzer.c:707-709; `scope_depth` is a `uint8_t`. -/
def beginScope (s : State) : State :=
  match s.frames with
  | [] => s
  | f :: fs => { s with frames := { f with depth := (f.depth + 1) % 256 } :: fs }

/-- The loop of `analyzer_end_scope`, src/semantic/analyzer.c:714-734: the locals left and the
variables that get `be_capture`.  The assertion is `s->type == SYMBOL_VAR`, line 723. -/
def popLocals (d : Nat) (marked : List Nat) : List Local → List Nat → Res (List Local × List Nat)
  | [], heap => .ok ([], heap)
  | l :: ls, heap =>
    if l.depth ≤ d then .ok (l :: ls, heap)
    else if l.id ∈ marked ∧ l.kind ≠ .fn then
      if l.kind = .var then popLocals d marked ls (l.id :: heap) else .abort
    else popLocals d marked ls heap

/-- `analyzer_end_scope`, src/semantic/analyzer.c:711-735. -/
def endScope (s : State) : Res State :=
  match s.frames with
  | [] => .ok s
  | f :: fs =>
    let d := (f.depth + 255) % 256
    (popLocals d s.marked f.locals s.heap).bind fun r =>
      .ok { s with heap := r.2, frames := { f with locals := r.1, depth := d } :: fs }

/-- `capture_exprs`, src/semantic/analyzer.c:1336-1369: only the free variables are entered. -/
def captures (frees : List Free) : List Cap :=
  (frees.filter (fun e => e.kind = .var)).map fun e =>
    if e.isLocal then .var e.id else .env e.envIndex

/-- The parameters, src/semantic/analyzer.c:1319-1330 and 1144-1155. -/
def addParams : List Name → State → State
  | [], s => s
  | p :: ps, s => addParams ps (localNew .var p s)

/-- `analyzer_current_init`, src/semantic/analyzer.c:1076-1093. -/
def enter (s : State) : State := { s with frames := ⟨[], 0, []⟩ :: s.frames }

/-- The name of the function inside itself, src/semantic/analyzer.c:1291-1311.  A function
literal has no name of its own (parser.c:2653 refuses one), so it is called `lambda`; the check
for a redeclaration is not reached. -/
def selfLocal (s : State) : State := localNew .fn .lambda s

/-- The end of `analyzer_local_fndef`, src/semantic/analyzer.c:1371-1414: back to the function
around, where the literal becomes a local name too. -/
def leave (id : Nat) (caps : List Cap) (s : State) : State :=
  match s.frames with
  | _ :: f :: fs =>
    { s with frames := { f with locals :=
      ⟨.lambda, id, if caps.length > 0 then .var else .fn, f.depth⟩ :: f.locals } :: fs }
  | _ => { s with frames := s.frames.tail }

/-- The captures of the function being left. -/
def currentCaptures (s : State) : List Cap :=
  match s.frames with
  | [] => []
  | f :: _ => captures f.frees

/-- `analyzer_stmt` and `analyzer_expr` as far as names go: src/semantic/analyzer.c:1015-1046
(declarations: the redeclaration check, then the new local; constants are not checked), 803-826
and others (blocks), 1269-1415 (`analyzer_local_fndef`). -/
def analyze : Code → State → Res (Out × State)
  | .nil, s => .ok (.nil, s)
  | .use x k, s =>
    let r := ident x s
    (analyze k r.2).bind fun q => .ok (.use r.1 q.1, q.2)
  | .decl x k, s =>
    if redeclared x s then .redeclared
    else (analyze k (localNew .var x s)).bind fun q => .ok (.decl s.next q.1, q.2)
  | .const x k, s =>
    (analyze k (localNew .const x s)).bind fun q => .ok (.decl s.next q.1, q.2)
  | .block b k, s =>
    (analyze b (beginScope s)).bind fun r =>
    (endScope r.2).bind fun s' =>
    (analyze k s').bind fun q => .ok (.block r.1 q.1, q.2)
  | .fn ps b k, s =>
    (analyze b (addParams ps (beginScope (selfLocal (enter s))))).bind fun r =>
    let caps := currentCaptures r.2
    (endScope r.2).bind fun s' =>
    (analyze k (leave s.next caps s')).bind fun q => .ok (.fn caps r.1 q.1, q.2)

/-- `analyzer_global_fndef`, src/semantic/analyzer.c:1100-1163.  `analyzer_current` is not put
back afterwards. -/
def analyzeGlobal (f : Fun) (s : State) : Res (Out × State) :=
  (analyze f.body (addParams f.params (beginScope (enter s)))).bind fun r =>
  (endScope r.2).bind fun s' => .ok (r.1, s')

/-- `analyzer_module_bodies`, src/semantic/analyzer.c:2500-2510. -/
def analyzeAll : List Fun → State → Res (List Out × State)
  | [], s => .ok ([], s)
  | f :: fs, s =>
    (analyzeGlobal f s).bind fun r =>
    (analyzeAll fs r.2).bind fun q => .ok (r.1 :: q.1, q.2)

/-- The state before the bodies of a module. -/
def start : State := ⟨0, [], [], []⟩

/-! ## What the analysed program does

`linear_capture_expr` and `linear_fn_decl`, src/linear.c:3914-4040, fill place `i` of a function's
environment with the variable that `capture_exprs[i]` names in the function around it; an access
to the environment reads that place. -/

/-- The variable in place `i` of the environment of the innermost function of the chain; each
element of the chain is the captures of one function. -/
def envPlace : List (List Cap) → Nat → Meaning
  | [], _ => .junk
  | caps :: rest, i =>
    match caps[i]? with
    | none => .junk
    | some (.var id) => .var 1 id
    | some (.env j) =>
      match envPlace rest j with
      | .var h id => .var (h + 1) id
      | m => m

def Ref.means (chain : List (List Cap)) : Ref → Meaning
  | .name id => .var 0 id
  | .env i => envPlace chain i
  | .global x => .global x

/-- What the uses of names in an analysed body read, in the order of the text. -/
def Out.reads (chain : List (List Cap)) : Out → List Meaning
  | .nil => []
  | .use r k => r.means chain :: k.reads chain
  | .decl _ k => k.reads chain
  | .block b k => b.reads chain ++ k.reads chain
  | .fn caps b k => b.reads (caps :: chain) ++ k.reads chain

/-- Every function literal captures at most `n` variables. -/
def Out.Captures (n : Nat) : Out → Prop
  | .nil => True
  | .use _ k => k.Captures n
  | .decl _ k => k.Captures n
  | .block b k => b.Captures n ∧ k.Captures n
  | .fn caps b k => caps.length ≤ n ∧ b.Captures n ∧ k.Captures n

/-- The variables captured directly by some function literal. -/
def Out.captured : Out → List Nat
  | .nil => []
  | .use _ k => k.captured
  | .decl _ k => k.captured
  | .block b k => b.captured ++ k.captured
  | .fn caps b k => caps.filterMap (fun c => match c with | .var id => some id | .env _ => none) ++
      b.captured ++ k.captured

end Nature.Capture
