/-
Model of the expression parser: /repo/src/syntax/parser.c (parser_precedence_expr and the functions of its table).

The token list is what is left from the cursor on; the last token is the end of the source.  The parser changes the type of
tokens it meets: `less` is a `<` that has become TOKEN_LESS_THAN, `shr` is the second of two `>` that has become
TOKEN_RIGHT_SHIFT.  Not modelled (outcome `other`): vector, map and struct values, closures, macros, go, match, new, is, catch,
calls with type arguments, casts to types that are not a single keyword.  `parser_type` is a parameter: what is left after a type,
or nothing if there is none.
-/
import Verif.Scan.Model
namespace Nature.Parse
open Nature.Scan (Tok Ty Sym Kw)

inductive PTok
  | tok (t : Tok)
  | less
  | shr
deriving DecidableEq, Repr

/-- A symbol token; the text plays no role. -/
def isSym (s : Sym) : PTok → Bool
  | .tok t => t.ty == .sym s
  | _ => false

def isKw (k : Kw) : PTok → Bool
  | .tok t => t.ty == .kw k
  | _ => false

/-- src/ast.h: unary operators. -/
inductive Un
  | not | neg | bnot | la | ia
deriving DecidableEq, Repr

/-- src/ast.h: binary operators. -/
inductive Bin
  | add | sub | mul | div | rem | lshift | rshift | and | or | xor | lt | le | gt | ge | ee | ne | andAnd | orOr
deriving DecidableEq, Repr

/-- src/ast.h: expressions.  A missing start of a slice is the literal 0, a missing end the literal -1, as in the code. -/
inductive Expr
  | int (neg : Bool) (w : List Char)
  | float (neg : Bool) (w : List Char)
  | str (w : List Char)
  | bool (b : Bool)
  | null
  | ident (w : List Char)
  | un (o : Un) (e : Expr)
  | bin (o : Bin) (a b : Expr)
  | cond (c a b : Expr)
  | as (e : Expr) (k : Kw)
  | select (e : Expr) (w : List Char)
  | access (e k : Expr)
  | slice (e a b : Expr)
  | call (e : Expr) (args : List Expr) (spread : Bool)
  | tuple (es : List Expr)

/-- What a call can end with: a value, a reported error (the compiler exits), the compiler crashes (null function pointer, failed
assertion, end of the token list), something that is not modelled, or not at all. -/
inductive Out (α : Type)
  | ok (a : α)
  | err
  | crash
  | other
  | endless

def Out.bind {α β : Type} (x : Out α) (f : α → Out β) : Out β :=
  match x with
  | .ok a => f a
  | .err => .err
  | .crash => .crash
  | .other => .other
  | .endless => .endless

abbrev Res (α : Type) := Out (α × List PTok)

/-- parser.c:159-166 `parser_must`: a symbol is expected. -/
def must (s : Sym) : List PTok → Out (List PTok)
  | [] => .crash
  | t :: r => if isSym s t then .ok r else .err

/-! ### Type arguments or less than -/

/-- A name. -/
def isIdent : PTok → Bool
  | .tok t => t.ty == .ident
  | _ => false

/-- parser.c:1271-1280: the types after the first comma. -/
def typeList (typ : List PTok → Option (List PTok)) : Nat → List PTok → Option (List PTok)
  | 0, _ => none
  | n + 1, ts =>
    match typ ts with
    | none => none
    | some (t :: r) => if isSym .comma t then typeList typ n r else some (t :: r)
    | some [] => some []

/-- parser.c:1237-1248: only `name <` and `name.name <` can start type arguments. -/
def generic : Expr → Bool
  | .ident _ => true
  | .select (.ident _) _ => true
  | _ => false

/-- parser.c:1284-1291: a `>` and then `{`, `(` or a point. -/
def closes : List PTok → Bool
  | g :: t :: _ => isSym .rightAngle g && (isSym .leftCurly t || isSym .leftParen t || isSym .dot t)
  | _ => false

/-- parser.c:1231-1308 `parser_left_angle_is_type_args`, for the tokens after the `<`. -/
def typeArgs (typ : List PTok → Option (List PTok)) (e : Expr) (ts : List PTok) : Bool :=
  generic e &&
  match typ ts with
  | some (t :: r) =>
    if isSym .rightAngle t then true
    else if isSym .comma t then
      match typeList typ r.length r with
      | some r => closes r
      | none => false
    else false
  | _ => false

/-- parser.c:3412-3429 `parser_infix_token`: the tokens after it may have changed the first. -/
def infixTok (typ : List PTok → Option (List PTok)) (e : Expr) : List PTok → List PTok
  | t :: r =>
    if isSym .leftAngle t then (if typeArgs typ e r then t :: r else .less :: r)
    else if isSym .rightAngle t then
      match r with
      | u :: s => if isSym .rightAngle u then .shr :: s else t :: u :: s
      | [] => [t]
    else t :: r
  | [] => []

/-! ### The table -/

/-- parser.h:13-31: precedences; parser.c:3369-3407: the rules. 1 is PRECEDENCE_ASSIGN, 18 PRECEDENCE_PRIMARY. -/
def symPrec : Sym → Nat
  | .leftParen => 16
  | .leftSquare => 17
  | .leftAngle => 17
  | .dot => 17
  | .minus => 12
  | .plus => 12
  | .not => 15
  | .tilde => 15
  | .and => 8
  | .or => 6
  | .xor => 7
  | .leftShift => 11
  | .percent => 13
  | .star => 13
  | .slash => 13
  | .orOr => 4
  | .andAnd => 5
  | .notEqual => 9
  | .equalEqual => 9
  | .rightAngle => 10
  | .greaterEqual => 10
  | .lessEqual => 10
  | .question => 3
  | _ => 0

def infixPrec : PTok → Nat
  | .less => 10
  | .shr => 11
  | .tok t =>
    match t.ty with
    | .sym s => symPrec s
    | .kw .kAs => 14
    | .kw .kIs => 14
    | .kw .kCatch => 2
    | _ => 0

/-- parser.h:34-54 `token_to_ast_op`, for the tokens whose rule is `parser_binary`. -/
def symOp : Sym → Option Bin
  | .plus => some .add
  | .minus => some .sub
  | .star => some .mul
  | .slash => some .div
  | .percent => some .rem
  | .equalEqual => some .ee
  | .notEqual => some .ne
  | .greaterEqual => some .ge
  | .rightAngle => some .gt
  | .lessEqual => some .le
  | .andAnd => some .andAnd
  | .orOr => some .orOr
  | .and => some .and
  | .or => some .or
  | .xor => some .xor
  | .leftShift => some .lshift
  | _ => none

def tokOp : PTok → Option Bin
  | .less => some .lt
  | .shr => some .rshift
  | .tok t =>
    match t.ty with
    | .sym s => symOp s
    | _ => none

/-! ### parser_expr -/

def isEof : PTok → Bool
  | .tok t => t.ty == .eof
  | _ => false

/-- parser.c:3482-3516 `is_struct_param_new_prefix`, for the tokens after the `<`, with the number of open ones. -/
def angleCurly : Nat → List PTok → Bool
  | _, [] => false
  | n, t :: r =>
    if isSym .leftAngle t then angleCurly (n + 1) r
    else if isSym .rightAngle t then
      if n ≤ 1 then (match r with | u :: _ => isSym .leftCurly u | [] => false) else angleCurly (n - 1) r
    else if isEof t then false
    else angleCurly n r

/-- parser.c:3518-3547 `parser_is_struct_new_expr`. -/
def structNew : List PTok → Bool
  | a :: b :: r =>
    isIdent a &&
    (isSym .leftCurly b || (isSym .leftAngle b && angleCurly 1 r) ||
      match r with
      | c :: d :: r => isSym .dot b && isIdent c && (isSym .leftCurly d || (isSym .leftAngle d && angleCurly 1 r))
      | _ => false)
  | _ => false

/-- parser.c:3899-3914: what follows the word `new`. -/
def newType : Ty → Bool
  | .ident => true
  | .sym .leftSquare => true
  | .kw .kInt | .kw .kI8 | .kw .kI16 | .kw .kI32 | .kw .kI64 | .kw .kUint | .kw .kU8 | .kw .kU16 | .kw .kU32 | .kw .kU64
  | .kw .kFloat | .kw .kF32 | .kw .kF64 | .kw .kBool => true
  | _ => false

/-- parser.c:3894-3915 `parser_is_new`. -/
def isNew : List PTok → Bool
  | .tok a :: .tok b :: _ => a.ty == .ident && a.text == "new".toList && newType b.ty
  | _ => false

/-- The keywords for which `parser_expr` does something else. -/
def startsOther : List PTok → Bool
  | t :: _ => isKw .kGo t || isKw .kMatch t || isKw .kFn t
  | [] => false

/-- parser.c:3921-3947 `parser_expr`. -/
def exprWith (P : Nat → List PTok → Res Expr) (ts : List PTok) : Res Expr :=
  if structNew ts || startsOther ts || isNew ts then .other else P 1 ts

/-! ### Prefixes -/

/-- The operators that stand before an expression (parser.c:1379-1430). -/
def symUn : Sym → Option Un
  | .not => some .not
  | .minus => some .neg
  | .tilde => some .bnot
  | .and => some .la
  | .star => some .ia
  | _ => none

/-- parser.c:1550-1585 `parser_left_paren_expr`, after the first expression. -/
def closeParen (T : List Expr → List PTok → Res (List Expr)) (e : Expr) : List PTok → Res Expr
  | [] => .crash
  | t :: r =>
    if isSym .rightParen t then .ok (e, r)
    else if isSym .comma t then (T [e] r).bind fun x => .ok (.tuple x.1, x.2)
    else .err

/-- parser.c:1379-1430 `parser_unary`, after the operator: a minus before a number belongs to the number. -/
def unaryWith (P : Nat → List PTok → Res Expr) (o : Un) (r : List PTok) : Res Expr :=
  let plain := (P 15 r).bind fun x => .ok (.un o x.1, x.2)
  match o, r with
  | .neg, .tok t :: s =>
    match t.ty with
    | .int => .ok (.int true t.text, s)
    | .float => .ok (.float true t.text, s)
    | _ => plain
  | _, _ => plain

/-- parser.c:3369-3407: the functions for prefixes; `parser_literal` is 1587-1599, `parser_ident_expr` 1654-1671. -/
def prefixWith (P : Nat → List PTok → Res Expr) (T : List Expr → List PTok → Res (List Expr)) : List PTok → Res Expr
  | [] => .crash
  | .less :: _ => .err
  | .shr :: _ => .err
  | .tok t :: r =>
    match t.ty with
    | .int => .ok (.int false t.text, r)
    | .float => .ok (.float false t.text, r)
    | .str => .ok (.str t.text, r)
    | .kw .kTrue => .ok (.bool true, r)
    | .kw .kFalse => .ok (.bool false, r)
    | .kw .kNull => .ok (.null, r)
    | .ident => .ok (.ident t.text, r)
    | .kw .kChan => .ok (.ident t.text, r)
    | .kw .kIs => .other
    | .macroIdent => .other
    | .sym .leftSquare => .other
    | .sym .leftCurly => .other
    | .sym .leftParen => (exprWith P r).bind fun x => closeParen T x.1 x.2
    | .sym s =>
      match symUn s with
      | some o => unaryWith P o r
      | none => .err
    | _ => .err

/-! ### Infixes -/

/-- parser.c:1679-1727 `parser_access`, after the `[`. -/
def accessEnd (e k : Expr) : List PTok → Res Expr
  | [] => .crash
  | t :: r => if isSym .rightSquare t then .ok (.access e k, r) else .err

def sliceEnd (P : Nat → List PTok → Res Expr) (e a : Expr) : List PTok → Res Expr
  | [] => .crash
  | t :: r =>
    if isSym .rightSquare t then .ok (.slice e a (.int true ['1']), r)
    else (exprWith P (t :: r)).bind fun x => (must .rightSquare x.2).bind fun r => .ok (.slice e a x.1, r)

def accessWith (P : Nat → List PTok → Res Expr) (e : Expr) : List PTok → Res Expr
  | [] => .crash
  | t :: r =>
    if isSym .range t then sliceEnd P e (.int false ['0']) r
    else
      (exprWith P (t :: r)).bind fun x =>
        match x.2 with
        | [] => .crash
        | t :: r => if isSym .range t then sliceEnd P e x.1 r else accessEnd e x.1 (t :: r)

/-- parser.c:1735-1751 `parser_unknown_select`, after the point. -/
def selectWith (e : Expr) : List PTok → Res Expr
  | [] => .crash
  | .tok t :: r => if t.ty = .ident then .ok (.select e t.text, r) else .err
  | _ => .err

/-- parser.c:1468-1487 `parser_ternary`, after the `?`. -/
def ternaryWith (P : Nat → List PTok → Res Expr) (c : Expr) (r : List PTok) : Res Expr :=
  (exprWith P r).bind fun a => (must .colon a.2).bind fun r => (P 3 r).bind fun b => .ok (.cond c a.1 b.1, b.2)

/-- parser.c:369-378 `parser_is_basic_type`. -/
def basicType : Kw → Bool
  | .kVar | .kNull | .kInt | .kVoid | .kI8 | .kI16 | .kI32 | .kI64 | .kUint | .kU8 | .kU16 | .kU32 | .kU64 | .kFloat | .kF32
  | .kF64 | .kBool | .kString => true
  | _ => false

/-- parser.c:1489-1497 `parser_as_expr`, after the `as`. -/
def asWith (e : Expr) : List PTok → Res Expr
  | [] => .crash
  | .tok t :: r =>
    match t.ty with
    | .kw k => if basicType k then .ok (.as e k, r) else .other
    | _ => .other
  | _ => .other

/-- parser.c:1320-1373 `parser_type_args_expr`, after the `<`: the assertion at the end. -/
def typeArgsWith (typ : List PTok → Option (List PTok)) (ts : List PTok) : Res Expr :=
  match typeList typ ts.length ts with
  | none => .err
  | some r =>
    match r with
    | [] => .crash
    | g :: r =>
      if isSym .rightAngle g then
        match r with
        | [] => .crash
        | t :: _ => if isSym .leftParen t || isSym .dot t || isSym .leftCurly t then .other else .crash
      else .err

/-- parser.c:3369-3407: the functions for infixes; `!` and `~` have a precedence but no function. -/
def infixWith (typ : List PTok → Option (List PTok)) (P : Nat → List PTok → Res Expr)
    (A : List Expr → List PTok → Res (List Expr × Bool)) (e : Expr) : List PTok → Res Expr
  | [] => .crash
  | t :: r =>
    match tokOp t with
    | some o => (P (infixPrec t + 1) r).bind fun x => .ok (.bin o e x.1, x.2)
    | none =>
      if isSym .leftParen t then (A [] r).bind fun x => .ok (.call e x.1.1 x.1.2, x.2)
      else if isSym .leftSquare t then accessWith P e r
      else if isSym .dot t then selectWith e r
      else if isSym .question t then ternaryWith P e r
      else if isSym .leftAngle t then typeArgsWith typ r
      else if isKw .kAs t then asWith e r
      else if isKw .kIs t || isKw .kCatch t then .other
      else .crash

/-! ### The parser -/

mutual

/-- parser.c:3431-3461 `parser_precedence_expr`, without `exclude`. -/
def prec (typ : List PTok → Option (List PTok)) : Nat → Nat → List PTok → Res Expr
  | 0, _, _ => .endless
  | n + 1, p, ts => (prefixWith (prec typ n) (elems typ n) ts).bind fun x => loop typ n p x.1 x.2

/-- The loop of parser_precedence_expr. -/
def loop (typ : List PTok → Option (List PTok)) : Nat → Nat → Expr → List PTok → Res Expr
  | 0, _, _, _ => .endless
  | n + 1, p, e, ts =>
    match infixTok typ e ts with
    | [] => .crash
    | t :: r =>
      if p ≤ infixPrec t then (infixWith typ (prec typ n) (args typ n) e (t :: r)).bind fun x => loop typ n p x.1 x.2
      else .ok (e, t :: r)

/-- parser.c:1753-1785 `parser_arg`, after the `(`; the arguments so far are kept with the last first. -/
def args (typ : List PTok → Option (List PTok)) : Nat → List Expr → List PTok → Res (List Expr × Bool)
  | 0, _, _ => .endless
  | _ + 1, _, [] => .crash
  | n + 1, es, t :: r =>
    if isSym .rightParen t then .ok ((es.reverse, false), r)
    else if isSym .ellipsis t then
      (exprWith (prec typ n) r).bind fun x => (must .rightParen x.2).bind fun r => .ok (((x.1 :: es).reverse, true), r)
    else
      (exprWith (prec typ n) (t :: r)).bind fun x =>
        match x.2 with
        | [] => .crash
        | t :: r =>
          if isSym .rightParen t then .ok (((x.1 :: es).reverse, false), r)
          else if isSym .comma t then args typ n (x.1 :: es) r
          else .err

/-- parser.c:1566-1577: the elements of a tuple after the first comma. -/
def elems (typ : List PTok → Option (List PTok)) : Nat → List Expr → List PTok → Res (List Expr)
  | 0, _, _ => .endless
  | n + 1, es, ts =>
    (exprWith (prec typ n) ts).bind fun x =>
      match x.2 with
      | [] => .crash
      | t :: r =>
        if isSym .rightParen t then .ok ((x.1 :: es).reverse, r)
        else if isSym .comma t then
          match r with
          | [] => .crash
          | u :: s => if isSym .rightParen u then .ok ((x.1 :: es).reverse, s) else elems typ n (x.1 :: es) (u :: s)
        else .err
end

/-- parser.c:3597-3599 `parser_expr_with_precedence`; every round takes a token, so that this many rounds are enough. -/
def parse (typ : List PTok → Option (List PTok)) (ts : List PTok) : Res Expr := prec typ (2 * ts.length + 2) 1 ts

end Nature.Parse
