/-
Which values may be put where, said without reference to the compiler.

A small language of types, the relation `Same` (two ways of writing one type) and the
relation `Ok` (a value of the second type may be stored in a place of the first type).
Nothing here mentions how src/semantic/infer.c decides the question.
-/
namespace Nature.Types

/-- The types with no parts.  utils/type.h:70-128. -/
inductive Prim where
  | bool | i8 | u8 | i16 | u16 | i32 | u32 | i64 | u64 | f32 | f64
  | string | anyptr | coroutine | null | void | any | enum
deriving DecidableEq, Repr

/-- What a function type records besides its parameters and its result.
utils/type.h:394-410 (`is_rest`, `is_c_variadic`, `is_errable`, `is_fx`). -/
structure FnFlags where
  rest : Bool := false
  cVariadic : Bool := false
  errable : Bool := false
  fx : Bool := false
deriving DecidableEq, Repr

/-- Types after the names in them have been looked up.  utils/type.h:286-330 (`type_t`).

* `named n args body` is a type the program declared with `type n<args> = body`, where `body`
  is not itself a declared name: looking a name up goes all the way (infer.c:3990-4048).  A
  declaration that mentions itself is looked up only so deep (infer.c:3975-3989), and where the
  compiler stops the body is `stop`.
* `iface n args` is a declared interface.
* `param n` is a type parameter of the generic function being checked.
* `allT`, `fnT`, `integerT` and `floaterT` are the wild cards `all_t`, `fn_t`, `integer_t` and
  `floater_t` of the built-in functions.
* `union nullable alts`: `nullable` records that it was written `t?`. -/
inductive Ty where
  | prim (p : Prim)
  | allT | fnT | integerT | floaterT
  | ptr (t : Ty) | ref (t : Ty)
  | vec (t : Ty) | set (t : Ty) | chan (t : Ty)
  | map (k v : Ty)
  | arr (n : Nat) (t : Ty)
  | tuple (ts : List Ty)
  | fn (flags : FnFlags) (ret : Ty) (params : List Ty)
  | struct (names : List String) (ts : List Ty)
  | tagged (tags : List String) (ts : List Ty)
  | union (nullable : Bool) (alts : List Ty)
  | iface (n : String) (args : List Ty)
  | named (n : String) (args : List Ty) (body : Ty)
  | param (n : String)
  | stop

/-- A type that lists alternatives. -/
def Ty.lists : Ty → Bool
  | .union _ _ => true
  | _ => false

mutual
/-- `Same t s`: `t` and `s` are one type.

Declared types go by name and arguments.  A declared union is interchangeable with the list of
its alternatives, and the order and repetition of alternatives do not matter. -/
inductive Same : Ty → Ty → Prop
  | prim (p : Prim) : Same (.prim p) (.prim p)
  | allT : Same .allT .allT
  | fnT : Same .fnT .fnT
  | integerT : Same .integerT .integerT
  | floaterT : Same .floaterT .floaterT
  | param (n : String) : Same (.param n) (.param n)
  | stop : Same .stop .stop
  | ptr : Same t s → Same (.ptr t) (.ptr s)
  | ref : Same t s → Same (.ref t) (.ref s)
  | vec : Same t s → Same (.vec t) (.vec s)
  | set : Same t s → Same (.set t) (.set s)
  | chan : Same t s → Same (.chan t) (.chan s)
  | map : Same k k' → Same v v' → Same (.map k v) (.map k' v')
  | arr (n : Nat) : Same t s → Same (.arr n t) (.arr n s)
  | tuple : SameL ts ss → Same (.tuple ts) (.tuple ss)
  | fn (fl : FnFlags) : Same r r' → SameL ps ps' → Same (.fn fl r ps) (.fn fl r' ps')
  | struct (names : List String) : SameL ts ss → Same (.struct names ts) (.struct names ss)
  | tagged (tags : List String) : SameL ts ss → Same (.tagged tags ts) (.tagged tags ss)
  | iface (n : String) : SameL a a' → Same (.iface n a) (.iface n a')
  | named (n : String) (b b' : Ty) : (b.lists && b'.lists) = false → SameL a a' →
      Same (.named n a b) (.named n a' b')
  | union (f g : Bool) : Among ds ss → AmongR ss ds → Same (.union f ds) (.union g ss)
  | openL (n : String) (a : List Ty) : b.lists = true → s.lists = true →
      Same b s → Same (.named n a b) s
  | openR (n : String) (a : List Ty) : b.lists = true → t.lists = true →
      Same t b → Same t (.named n a b)
  | openB (n m : String) (a c : List Ty) : b.lists = true → d.lists = true →
      Same b d → Same (.named n a b) (.named m c d)

/-- The same types one by one. -/
inductive SameL : List Ty → List Ty → Prop
  | nil : SameL [] []
  | cons : Same t s → SameL ts ss → SameL (t :: ts) (s :: ss)

/-- `Among ds ss`: each of `ss` is one of `ds`. -/
inductive Among : List Ty → List Ty → Prop
  | nil (ds : List Ty) : Among ds []
  | cons : d ∈ ds → Same d s → Among ds ss → Among ds (s :: ss)

/-- `AmongR ss ds`: each of `ds` is one of `ss`. -/
inductive AmongR : List Ty → List Ty → Prop
  | nil (ss : List Ty) : AmongR ss []
  | cons : s ∈ ss → Same d s → AmongR ss ds → AmongR ss (d :: ds)
end

/-- `Means t c`: `t` is `c`, or is declared as `c`. -/
inductive Means : Ty → Ty → Prop
  | plain (c : Ty) : Means c c
  | named (n : String) (a : List Ty) (c : Ty) : Means (.named n a c) c

/-- A whole-number type. -/
def Prim.whole : Prim → Bool
  | .i8 | .u8 | .i16 | .u16 | .i32 | .u32 | .i64 | .u64 => true
  | _ => false

/-- A floating-point type. -/
def Prim.floating : Prim → Bool
  | .f32 | .f64 => true
  | _ => false

/-- `Fits t s`: a value of `s`, as it is, is a value of `t`. -/
inductive Fits : Ty → Ty → Prop
  | same : Same t s → Fits t s
  | all (s : Ty) : Fits .allT s
  | fn : Means s (.fn fl r ps) → Fits .fnT s
  | integer (p : Prim) : p.whole = true → Means s (.prim p) → Fits .integerT s
  | floater (p : Prim) : p.floating = true → Means s (.prim p) → Fits .floaterT s
  | ptrNull : Means t (.ptr x) → Means s (.prim .null) → Fits t s
  | ptrRef : Means t (.ptr x) → Means s (.ref y) → Same x y → Fits t s
  | more : Means t (.union f ds) → Means s (.union g ss) → Among ds ss → Fits t s

/-- A declaration whose values are not themselves boxed, absent or nothing. -/
def Ty.solid : Ty → Bool
  | .prim .any | .prim .void | .prim .null | .iface _ _ => false
  | _ => true

/-- What sort of type a declaration introduces. -/
inductive Head where
  | ptr | union | any | void | null | iface | other
deriving DecidableEq, Repr

/-- The sort of a declaration's body. -/
def Ty.head : Ty → Head
  | .ptr _ => .ptr
  | .union _ _ => .union
  | .prim .any => .any
  | .prim .void => .void
  | .prim .null => .null
  | .iface _ _ => .iface
  | _ => .other

/-- A body that is known. -/
def Ty.known : Ty → Bool
  | .stop => false
  | _ => true

mutual
/-- The type could come from one program: `heads n` is the sort of the declaration of `n`, so that
two types with this name cannot differ in that; each field has one name; and a union written
`t?` has the two alternatives `t` and `null`. -/
def Ty.declared (heads : String → Head) : Ty → Bool
  | .ptr t | .ref t | .vec t | .set t | .chan t | .arr _ t => t.declared heads
  | .map k v => k.declared heads && v.declared heads
  | .tuple ts | .iface _ ts => declaredL heads ts
  | .union nullable ts =>
    declaredL heads ts &&
      (!nullable ||
        match ts with
        | [_, .prim .null] => true
        | _ => false)
  | .struct ns ts | .tagged ns ts => ns.length == ts.length && declaredL heads ts
  | .fn _ r ps => r.declared heads && declaredL heads ps
  | .named n a b =>
    declaredL heads a && b.declared heads && (!b.known || b.head == heads n)
  | _ => true

/-- All of the types. -/
def declaredL (heads : String → Head) : List Ty → Bool
  | [] => true
  | t :: ts => t.declared heads && declaredL heads ts
end

mutual
/-- A type with no union, `ptr`, interface or wild card in it.  The bodies of declared types do
not count, unless the declared type is itself a union or a `ptr`. -/
def Ty.rigid : Ty → Bool
  | .prim _ | .param _ => true
  | .ref t | .vec t | .set t | .chan t | .arr _ t => t.rigid
  | .map k v => k.rigid && v.rigid
  | .tuple ts | .struct _ ts | .tagged _ ts => rigidL ts
  | .fn _ r ps => r.rigid && rigidL ps
  | .named _ a b =>
    rigidL a &&
      match b with
      | .ptr _ | .union _ _ | .iface _ _ => false
      | _ => true
  | _ => false

/-- All of the types. -/
def rigidL : List Ty → Bool
  | [] => true
  | t :: ts => t.rigid && rigidL ts
end

/-- An interface. -/
def Ty.isIface : Ty → Bool
  | .iface _ _ => true
  | _ => false

/-- The declared type whose methods a value of type `s` offers: `s` itself, or what a pointer
`s` points to. -/
inductive Offers : Ty → String → Prop
  | direct : b.solid = true → (∀ x, b ≠ .ref x ∧ b ≠ .ptr x) → Offers (.named n a b) n
  | ref : Means s (.ref (.named n a b)) → Offers s n
  | ptr : Means s (.ptr (.named n a b)) → Offers s n

/-- `Ok impl t s`: a value of type `s` may be put where a value of type `t` is expected.
`impl n t` says that the declared type `n` implements the interface `t`. -/
inductive Ok (impl : String → Ty → Bool) : Ty → Ty → Prop
  /-- It is a value of that type already. -/
  | fits : Fits t s → Ok impl t s
  /-- Anything can be boxed as `any`. -/
  | any : Means t (.prim .any) → ¬ Means s (.prim .any) → ¬ Means s (.prim .void) → Ok impl t s
  /-- One alternative of a union. -/
  | one : Means t (.union f ds) → ¬ Means s (.prim .any) → ¬ Means s (.prim .void) →
      (∀ g ss, ¬ Means s (.union g ss)) → d ∈ ds → Same d s → Ok impl t s
  /-- A value of a type that implements the interface. -/
  | iface : Offers s m → impl m (.iface n a) = true → Ok impl (.iface n a) s
  /-- The same for an interface that may be null. -/
  | nullable : Means t (.union true (.iface n a :: ds)) → Offers s m →
      impl m (.iface n a) = true → Ok impl t s

/-- The arguments of a declared type are rigid. -/
def Ty.argsRigid : Ty → Bool
  | .named _ a _ => rigidL a
  | _ => true

/-- The pairs of a target and a source for which the compiler's answer can be relied on: the
target is rigid, or only its outermost part is not, and interfaces do not meet interfaces. -/
inductive Plain : Ty → Ty → Prop
  | rigid : t.rigid = true → Plain t s
  | wild : (t = .allT ∨ t = .fnT ∨ t = .integerT ∨ t = .floaterT) → Plain t s
  | ptr : Means t (.ptr x) → t.argsRigid = true → x.rigid = true → Plain t s
  | union : Means t (.union f ds) → t.argsRigid = true → rigidL ds = true → Plain t s
  | iface : (∀ m c, ¬ Means s (.iface m c)) → Plain (.iface n a) s
  | mixed : Means t (.union f ds) → t.argsRigid = true →
      (∀ d ∈ ds, d.rigid = true ∨ d.isIface = true) →
      (∀ m c, ¬ Means s (.iface m c)) → (∀ g ss, ¬ Means s (.union g ss)) → Plain t s

end Nature.Types
