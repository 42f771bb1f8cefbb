import Verif.Types.Spec
/-
What `is` and `as` mean for a value kept in a union, an `any`, an interface or a tagged union,
said without reference to how types are told apart at run time.

`Same` (Spec.lean) is the sameness of types.
-/
namespace Nature.Types

/-- A character that a number begins with. -/
def digitChar (c : Char) : Bool := '0' ≤ c && c ≤ '9'

/-- The name of a field or a tag: not empty, not beginning with a digit, without a dot. -/
def fieldName (s : String) : Bool :=
  match s.toList with
  | [] => false
  | c :: cs => !digitChar c && (c :: cs).all (· != '.')

/-- What is before the first dot. -/
def firstWord (l : List Char) : List Char := l.takeWhile (· != '.')

/-- The words that built-in types are called by. -/
def reservedWords : List String :=
  ["bool", "i8", "u8", "i16", "u16", "i32", "u32", "i64", "u64", "f32", "f64", "string", "anyptr",
   "coroutine_t", "null", "void", "any", "enum", "all_t", "fn_t", "integer_t", "floater_t",
   "ptr", "ref", "vec", "set", "chan", "map", "arr", "tuple", "fn", "fx", "tagged_union", "union"]

/-- The full name of a declared type, `package.name`: its last part does not begin with a digit,
and its package is not called like a built-in type. -/
def typeName (s : String) : Bool :=
  (match (s.toList.reverse.takeWhile (· != '.')).reverse with
   | [] => false
   | c :: _ => !digitChar c) &&
  !reservedWords.contains (String.ofList (firstWord s.toList)) &&
  (firstWord s.toList).take 6 != "struct".toList

/-- A declared program: what each name stands for, and which names are interfaces. -/
structure Decls where
  body : String → List Ty → Ty
  iface : String → Bool

/-- `t` is, outermost, a type of the program.  Every name stands for what it was declared as.
`t?` is written so exactly if the second of two alternatives is `null`.  Functions are not
variadic and cannot fail: see `C91_errable_counterexample` for why this is asked. -/
def Ofs (p : Decls) : Ty → Prop
  | .named n a b => typeName n = true ∧ p.iface n = false ∧ b = p.body n a
  | .iface n _ => typeName n = true ∧ p.iface n = true
  | .fn fl _ _ => fl.rest = false ∧ fl.cVariadic = false ∧ fl.errable = false
  | .union nullable ts =>
    nullable = match ts with
      | [_, .prim .null] => true
      | _ => false
  | .struct ns ts | .tagged ns ts => ns.length = ts.length ∧ ∀ n ∈ ns, fieldName n = true
  | .param _ | .stop => False
  | _ => True

/-- `Part u t`: `t` is made from `u`.  What a declared name stands for is not a part of the
name. -/
inductive Part : Ty → Ty → Prop
  | ptr : Part t (.ptr t)
  | ref : Part t (.ref t)
  | vec : Part t (.vec t)
  | set : Part t (.set t)
  | chan : Part t (.chan t)
  | key : Part k (.map k v)
  | value : Part v (.map k v)
  | arr : Part t (.arr n t)
  | tuple : t ∈ ts → Part t (.tuple ts)
  | ret : Part r (.fn fl r ps)
  | param : t ∈ ps → Part t (.fn fl r ps)
  | struct : t ∈ ts → Part t (.struct ns ts)
  | tagged : t ∈ ts → Part t (.tagged ns ts)
  | union : t ∈ ts → Part t (.union nullable ts)
  | iface : t ∈ a → Part t (.iface n a)
  | named : t ∈ a → Part t (.named n a b)

mutual
/-- No union inside, neither written out nor by name. -/
def Ty.unionless : Ty → Bool
  | .ptr t | .ref t | .vec t | .set t | .chan t | .arr _ t => t.unionless
  | .map k v => k.unionless && v.unionless
  | .tuple ts | .struct _ ts | .tagged _ ts | .iface _ ts => unionlessL ts
  | .fn _ r ps => r.unionless && unionlessL ps
  | .named _ a b => unionlessL a && !b.lists
  | .union _ _ => false
  | _ => true

/-- All of the types. -/
def unionlessL : List Ty → Bool
  | [] => true
  | t :: ts => t.unionless && unionlessL ts
end

end Nature.Types
