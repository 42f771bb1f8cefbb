/-!
# Input of the linker

What is common to the model and to the specification of C108: objects and their symbols.
-/

namespace Nature.Link

/-- What a global symbol of an object is: a reference to a symbol of another object (`used`: a
relocation that is kept uses it), a common symbol, which is a request for storage, or a
definition. -/
inductive Kind where
  | undefined (used : Bool)
  | common (size align : Nat) (tls : Bool)
  | regular
  deriving DecidableEq, Repr

/-- A global symbol. -/
structure Sym where
  name : String
  kind : Kind
  weak : Bool
  deriving DecidableEq, Repr

/-- An object: a file named on the command line, or, if `isLazy`, a member of an archive. -/
structure Obj where
  isLazy : Bool
  syms : List Sym
  deriving DecidableEq, Repr

/-- Object number and symbol number. -/
abbrev Pos := Nat × Nat

end Nature.Link
