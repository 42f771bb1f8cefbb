/-
The language and the meaning of names in it.

A function body is seen as far as scoping goes: uses of names, declarations of variables and
constants, blocks, and function literals.  Every other construct of the language is a
combination of these (an `if` is two blocks, a `for` a block with declarations in front, a
`catch` a block with the error declared in front, and so on).
-/

namespace Nature.Capture

/-- A name in the source text.  `lambda` is an ordinary identifier of the language; it is kept
apart because the compiler uses it as the name of every function literal. -/
inductive Name where
  | lambda
  | user (n : Nat)
  deriving DecidableEq, Repr

/-- The statements of a body, one after the other. -/
inductive Code where
  | nil
  /-- an expression that mentions a name -/
  | use (x : Name) (k : Code)
  /-- a variable is declared; the expression it starts with comes before, as `use` -/
  | decl (x : Name) (k : Code)
  /-- a constant is declared -/
  | const (x : Name) (k : Code)
  /-- a block with its own scope -/
  | block (b : Code) (k : Code)
  /-- a function literal -/
  | fn (ps : List Name) (b : Code) (k : Code)
  deriving DecidableEq, Repr

/-- A global function. -/
structure Fun where
  params : List Name
  body : Code
  deriving DecidableEq, Repr

/-- What a use of a name means. -/
inductive Meaning where
  /-- declaration number `id`, found `hops` functions further out: 0 is the function the use
  stands in -/
  | var (hops id : Nat)
  /-- not declared in any function around the use: left to the global names -/
  | global (x : Name)
  /-- nothing: a place of an environment that does not exist -/
  | junk
  deriving DecidableEq, Repr

/-- The declarations visible in one function, innermost and latest first, each with its number. -/
abbrev Visible := List (Name × Nat)

/-- The innermost declaration of a name, looking at the function itself first and then at the
functions around it. -/
def find (x : Name) : List Visible → Option (Nat × Nat)
  | [] => none
  | v :: vs =>
    match v.find? (fun b => b.1 = x) with
    | some b => some (0, b.2)
    | none => (find x vs).map fun r => (r.1 + 1, r.2)

def meaning (x : Name) (vs : List Visible) : Meaning :=
  match find x vs with
  | some (h, i) => .var h i
  | none => .global x

/-- The parameters of a function, numbered from `n`. -/
def numbered (n : Nat) : List Name → Visible → Visible
  | [], v => v
  | p :: ps, v => numbered (n + 1) ps ((p, n) :: v)

/-- A declaration more in the innermost function. -/
def declare (x : Name) (n : Nat) : List Visible → List Visible
  | [] => [[(x, n)]]
  | v :: vs => ((x, n) :: v) :: vs

/-- The number of declarations and function literals in a body: they are numbered in the order
in which they start in the text. -/
def count : Code → Nat
  | .nil => 0
  | .use _ k => count k
  | .decl _ k => 1 + count k
  | .const _ k => 1 + count k
  | .block b k => count b + count k
  | .fn ps b k => 1 + ps.length + count b + count k

/-- The meaning of each use of a name in a body, in the order of the text.  A declaration is
visible from the point after it to the end of its block, in blocks and functions inside too. -/
def meanings (vs : List Visible) (n : Nat) : Code → List Meaning
  | .nil => []
  | .use x k => meaning x vs :: meanings vs n k
  | .decl x k => meanings (declare x n vs) (n + 1) k
  | .const x k => meanings (declare x n vs) (n + 1) k
  | .block b k => meanings vs n b ++ meanings vs (n + count b) k
  | .fn ps b k =>
    meanings (numbered (n + 1) ps [] :: vs) (n + 1 + ps.length) b ++
      meanings vs (n + 1 + ps.length + count b) k

/-- The meanings of all uses in a program: nothing is visible from one global function to the
other. -/
def programMeanings (n : Nat) : List Fun → List (List Meaning)
  | [] => []
  | f :: fs => meanings [numbered n f.params []] (n + f.params.length) f.body ::
      programMeanings (n + f.params.length + count f.body) fs

/-- No variable is declared twice in the same block; `here` are the names already declared in the
block.  The parameters of a function and its body are one block. -/
def Distinct (here : List Name) : Code → Prop
  | .nil => True
  | .use _ k => Distinct here k
  | .decl x k => x ∉ here ∧ Distinct (x :: here) k
  | .const x k => x ∉ here ∧ Distinct (x :: here) k
  | .block b k => Distinct [] b ∧ Distinct here k
  | .fn ps b k => Distinct ps b ∧ Distinct here k

/-- The parameters of every function literal are different names. -/
def DistinctParams : Code → Prop
  | .nil => True
  | .use _ k => DistinctParams k
  | .decl _ k => DistinctParams k
  | .const _ k => DistinctParams k
  | .block b k => DistinctParams b ∧ DistinctParams k
  | .fn ps b k => ps.Nodup ∧ DistinctParams b ∧ DistinctParams k

/-- The name `lambda` does not occur. -/
def NoLambda : Code → Prop
  | .nil => True
  | .use x k => x ≠ .lambda ∧ NoLambda k
  | .decl x k => x ≠ .lambda ∧ NoLambda k
  | .const x k => x ≠ .lambda ∧ NoLambda k
  | .block b k => NoLambda b ∧ NoLambda k
  | .fn ps b k => .lambda ∉ ps ∧ NoLambda b ∧ NoLambda k

/-- No constant is declared inside a function. -/
def NoConst : Code → Prop
  | .nil => True
  | .use _ k => NoConst k
  | .decl _ k => NoConst k
  | .const _ _ => False
  | .block b k => NoConst b ∧ NoConst k
  | .fn _ b k => NoConst b ∧ NoConst k

/-- How deep blocks are nested in one function. -/
def nesting : Code → Nat
  | .nil => 0
  | .use _ k => nesting k
  | .decl _ k => nesting k
  | .const _ k => nesting k
  | .block b k => max (nesting b + 1) (nesting k)
  | .fn _ _ k => nesting k

/-- Blocks are nested less than 255 deep in every function. -/
def Shallow : Code → Prop
  | .nil => True
  | .use _ k => Shallow k
  | .decl _ k => Shallow k
  | .const _ k => Shallow k
  | .block b k => Shallow b ∧ Shallow k
  | .fn _ b k => nesting b < 255 ∧ Shallow b ∧ Shallow k

/-- How many times names are used in a body, functions inside included. -/
def names : Code → Nat
  | .nil => 0
  | .use _ k => 1 + names k
  | .decl _ k => names k
  | .const _ k => names k
  | .block b k => names b + names k
  | .fn _ b k => names b + names k

/-- No function literal uses more than `n` names. -/
def Brief (n : Nat) : Code → Prop
  | .nil => True
  | .use _ k => Brief n k
  | .decl _ k => Brief n k
  | .const _ k => Brief n k
  | .block b k => Brief n b ∧ Brief n k
  | .fn _ b k => names b ≤ n ∧ Brief n b ∧ Brief n k

/-- The programs the theorems speak about. -/
structure Plain (f : Fun) : Prop where
  params : Name.lambda ∉ f.params
  lambda : NoLambda f.body
  const : NoConst f.body
  nesting : nesting f.body < 255
  shallow : Shallow f.body

def decDistinct : (here : List Name) → (c : Code) → Decidable (Distinct here c)
  | _, .nil => isTrue trivial
  | here, .use _ k => decDistinct here k
  | here, .decl x k => @instDecidableAnd _ _ inferInstance (decDistinct (x :: here) k)
  | here, .const x k => @instDecidableAnd _ _ inferInstance (decDistinct (x :: here) k)
  | here, .block b k => @instDecidableAnd _ _ (decDistinct [] b) (decDistinct here k)
  | here, .fn ps b k => @instDecidableAnd _ _ (decDistinct ps b) (decDistinct here k)

instance (here : List Name) (c : Code) : Decidable (Distinct here c) := decDistinct here c

end Nature.Capture
