/-
How expressions are written: tokens that stand for an expression, with the precedences of the language.
-/
import Verif.Scan.Spec
import Verif.Parse.Model
namespace Nature.Parse
open Nature.Scan (Tok Ty Sym Kw)

/-- The token of a symbol, of a keyword. -/
def sy (s : Sym) : Tok := ⟨.sym s, s.text.toList⟩

/-- Tokens as the scanner gives them. -/
def raw (ts : List Tok) : List PTok := ts.map .tok

/-- How binary operators are written; the scanner gives two tokens for `>>`. -/
def Bin.spell : Bin → List Tok
  | .add => [sy .plus] | .sub => [sy .minus] | .mul => [sy .star] | .div => [sy .slash] | .rem => [sy .percent]
  | .lshift => [sy .leftShift] | .rshift => [sy .rightAngle, sy .rightAngle] | .and => [sy .and] | .or => [sy .or]
  | .xor => [sy .xor] | .lt => [sy .leftAngle] | .le => [sy .lessEqual] | .gt => [sy .rightAngle] | .ge => [sy .greaterEqual]
  | .ee => [sy .equalEqual] | .ne => [sy .notEqual] | .andAnd => [sy .andAnd] | .orOr => [sy .orOr]

/-- Which operators bind more tightly: those with the greater number. -/
def Bin.level : Bin → Nat
  | .mul | .div | .rem => 13
  | .add | .sub => 12
  | .lshift | .rshift => 11
  | .lt | .le | .gt | .ge => 10
  | .ee | .ne => 9
  | .and => 8
  | .xor => 7
  | .or => 6
  | .andAnd => 5
  | .orOr => 4

/-- How unary operators are written. They bind more tightly than all binary ones and `as` (14), and less than calls and selections. -/
def Un.sym : Un → Sym
  | .not => .not | .neg => .minus | .bnot => .tilde | .la => .and | .ia => .star

/-- How tightly what starts with this token binds to the expression before it; 0 if nothing does. -/
def follow : List Tok → Nat
  | [] => 0
  | t :: r =>
    match t.ty with
    | .sym .leftSquare => 17 | .sym .dot => 17 | .sym .leftParen => 16 | .kw .kAs => 14 | .kw .kIs => 14
    | .sym .star => 13 | .sym .slash => 13 | .sym .percent => 13 | .sym .plus => 12 | .sym .minus => 12 | .sym .leftShift => 11
    | .sym .rightAngle => if r.head?.any (fun u => u.ty == .sym .rightAngle) then 11 else 10
    | .sym .leftAngle => 10 | .sym .lessEqual => 10 | .sym .greaterEqual => 10
    | .sym .equalEqual => 9 | .sym .notEqual => 9 | .sym .and => 8 | .sym .xor => 7 | .sym .or => 6 | .sym .andAnd => 5
    | .sym .orOr => 4 | .sym .question => 3 | .kw .kCatch => 2
    | _ => 0

/-- Types separated by commas, and what is left after them. -/
inductive Types (typ : List PTok → Option (List PTok)) : List PTok → List PTok → Prop
  | one {s r : List PTok} : typ s = some r → Types typ s r
  | more {s r : List PTok} {w : List Char} {q : List PTok} : typ s = some (.tok ⟨.sym .comma, w⟩ :: r) → Types typ r q → Types typ s q

/-- What follows a `<` is read as type arguments: a type and `>`, or types, `>` and then `{`, `(` or a point. -/
def TypeArgs (typ : List PTok → Option (List PTok)) (s : List PTok) : Prop :=
  (∃ w r, typ s = some (.tok ⟨.sym .rightAngle, w⟩ :: r)) ∨
  ∃ w t r, Types typ s (.tok ⟨.sym .rightAngle, w⟩ :: .tok t :: r) ∧
    (t.ty = .sym .leftCurly ∨ t.ty = .sym .leftParen ∨ t.ty = .sym .dot)

/-- Only a name, or a name selected from a name, can have type arguments. -/
def Named (e : Expr) : Prop := (∃ w, e = .ident w) ∨ ∃ u w, e = .select (.ident u) w

/-- Nothing binds to the expression at that level any more.  (After an expression there is never a `!` or `~`, see C72.) -/
structure Stops (typ : List PTok → Option (List PTok)) (p : Nat) (e : Expr) (r : List Tok) : Prop where
  some : r ≠ []
  less : follow r < p
  angle : Named e → ∀ t s, r = t :: s → t.ty = .sym .leftAngle → ¬ TypeArgs typ (raw s)
  unary : ∀ t s, r = t :: s → t.ty ≠ .sym .not ∧ t.ty ≠ .sym .tilde

/-- No `>` directly before a `{`. -/
def NoAngleCurly (ts : List Tok) : Prop :=
  ∀ u a b v, ts = u ++ a :: b :: v → a.ty = .sym .rightAngle → b.ty ≠ .sym .leftCurly

/-- Not the beginning of a struct value `name {`, `name.name {`, `name<...> {`, ... -/
def NoStruct (ts : List Tok) : Prop :=
  ∀ t s, ts = t :: s → t.ty ≠ .sym .leftCurly ∧ (t.ty = .sym .leftAngle → NoAngleCurly s)

/-- An operator expression starts here, and not a struct value, `new`, `go`, `match` or a closure. -/
structure Free (ts : List Tok) : Prop where
  word : ∀ t s, ts = t :: s → t.ty ≠ .kw .kGo ∧ t.ty ≠ .kw .kMatch ∧ t.ty ≠ .kw .kFn
  new : ∀ s, ts ≠ ⟨.ident, "new".toList⟩ :: s
  name : ∀ t s, ts = t :: s → t.ty = .ident → NoStruct s
  path : ∀ t d u s, ts = t :: d :: u :: s → t.ty = .ident → d.ty = .sym .dot → u.ty = .ident → NoStruct s

/-- What can be written. -/
inductive Job
  /-- An expression that does not begin with another. -/
  | unit (e : Expr)
  /-- An expression all of whose outer operators bind at least that tightly. -/
  | chain (p : Nat) (e : Expr)
  /-- The same, where no operator that binds that tightly follows. -/
  | whole (p : Nat) (e : Expr)
  /-- Arguments with the closing parenthesis; whether the last is spread. -/
  | args (es : List Expr) (spread : Bool)
  /-- Elements of a tuple with the closing parenthesis. -/
  | elems (es : List Expr)

/-- These tokens, in front of those others, stand for that. -/
inductive Writes (typ : List PTok → Option (List PTok)) : Job → List Tok → List Tok → Prop
  | int {w : List Char} {r : List Tok} : Writes typ (.unit (.int false w)) [⟨.int, w⟩] r
  | negInt {w : List Char} {r : List Tok} : Writes typ (.unit (.int true w)) [sy .minus, ⟨.int, w⟩] r
  | float {w : List Char} {r : List Tok} : Writes typ (.unit (.float false w)) [⟨.float, w⟩] r
  | negFloat {w : List Char} {r : List Tok} : Writes typ (.unit (.float true w)) [sy .minus, ⟨.float, w⟩] r
  | str {w : List Char} {r : List Tok} : Writes typ (.unit (.str w)) [⟨.str, w⟩] r
  | true {w : List Char} {r : List Tok} : Writes typ (.unit (.bool Bool.true)) [⟨.kw .kTrue, w⟩] r
  | false {w : List Char} {r : List Tok} : Writes typ (.unit (.bool Bool.false)) [⟨.kw .kFalse, w⟩] r
  | null {w : List Char} {r : List Tok} : Writes typ (.unit .null) [⟨.kw .kNull, w⟩] r
  | ident {w : List Char} {r : List Tok} : Writes typ (.unit (.ident w)) [⟨.ident, w⟩] r
  | un {o : Un} {e : Expr} {ts r : List Tok} : (o = .neg → ∀ t s, ts = t :: s → t.ty ≠ .int ∧ t.ty ≠ .float) →
      Writes typ (.whole 15 e) ts r → Writes typ (.unit (.un o e)) (sy o.sym :: ts) r
  | paren {e : Expr} {ts r : List Tok} : Free (ts ++ sy .rightParen :: r) → Writes typ (.whole 1 e) ts (sy .rightParen :: r) →
      Writes typ (.unit e) (sy .leftParen :: (ts ++ [sy .rightParen])) r
  | tuple {e : Expr} {es : List Expr} {ts us r : List Tok} : Free (ts ++ sy .comma :: (us ++ r)) →
      Writes typ (.whole 1 e) ts (sy .comma :: (us ++ r)) → Writes typ (.elems es) us r →
      Writes typ (.unit (.tuple (e :: es))) (sy .leftParen :: (ts ++ sy .comma :: us)) r
  | unit {p : Nat} {e : Expr} {ts r : List Tok} : Writes typ (.unit e) ts r → Writes typ (.chain p e) ts r
  | bin {p : Nat} {o : Bin} {a b : Expr} {ts us r : List Tok} : Writes typ (.chain p a) ts (o.spell ++ (us ++ r)) → p ≤ o.level →
      (o = .lt → Named a → ¬ TypeArgs typ (raw (us ++ r))) → Writes typ (.whole (o.level + 1) b) us r →
      Writes typ (.chain p (.bin o a b)) (ts ++ (o.spell ++ us)) r
  | as {p : Nat} {k : Kw} {w w' : List Char} {e : Expr} {ts r : List Tok} : Writes typ (.chain p e) ts (⟨.kw .kAs, w⟩ :: ⟨.kw k, w'⟩ :: r) →
      p ≤ 14 → basicType k = Bool.true → Writes typ (.chain p (.as e k)) (ts ++ [⟨.kw .kAs, w⟩, ⟨.kw k, w'⟩]) r
  | cond {p : Nat} {c a b : Expr} {ts us vs r : List Tok} : Writes typ (.chain p c) ts (sy .question :: (us ++ sy .colon :: (vs ++ r))) →
      p ≤ 3 → Free (us ++ sy .colon :: (vs ++ r)) → Writes typ (.whole 1 a) us (sy .colon :: (vs ++ r)) → Writes typ (.whole 3 b) vs r →
      Writes typ (.chain p (.cond c a b)) (ts ++ sy .question :: (us ++ sy .colon :: vs)) r
  | select {p : Nat} {w : List Char} {e : Expr} {ts r : List Tok} : Writes typ (.chain p e) ts (sy .dot :: ⟨.ident, w⟩ :: r) → p ≤ 17 →
      Writes typ (.chain p (.select e w)) (ts ++ [sy .dot, ⟨.ident, w⟩]) r
  | access {p : Nat} {e k : Expr} {ts us r : List Tok} : Writes typ (.chain p e) ts (sy .leftSquare :: (us ++ sy .rightSquare :: r)) →
      p ≤ 17 → Free (us ++ sy .rightSquare :: r) → Writes typ (.whole 1 k) us (sy .rightSquare :: r) →
      Writes typ (.chain p (.access e k)) (ts ++ sy .leftSquare :: (us ++ [sy .rightSquare])) r
  | sliceAll {p : Nat} {e : Expr} {ts r : List Tok} : Writes typ (.chain p e) ts (sy .leftSquare :: sy .range :: sy .rightSquare :: r) →
      p ≤ 17 → Writes typ (.chain p (.slice e (.int Bool.false ['0']) (.int Bool.true ['1']))) (ts ++ [sy .leftSquare, sy .range, sy .rightSquare]) r
  | sliceFrom {p : Nat} {e a : Expr} {ts us r : List Tok} :
      Writes typ (.chain p e) ts (sy .leftSquare :: (us ++ sy .range :: sy .rightSquare :: r)) → p ≤ 17 →
      Free (us ++ sy .range :: sy .rightSquare :: r) → Writes typ (.whole 1 a) us (sy .range :: sy .rightSquare :: r) →
      Writes typ (.chain p (.slice e a (.int Bool.true ['1']))) (ts ++ sy .leftSquare :: (us ++ [sy .range, sy .rightSquare])) r
  | sliceTo {p : Nat} {e b : Expr} {ts vs r : List Tok} :
      Writes typ (.chain p e) ts (sy .leftSquare :: sy .range :: (vs ++ sy .rightSquare :: r)) → p ≤ 17 →
      Free (vs ++ sy .rightSquare :: r) → Writes typ (.whole 1 b) vs (sy .rightSquare :: r) →
      Writes typ (.chain p (.slice e (.int Bool.false ['0']) b)) (ts ++ sy .leftSquare :: sy .range :: (vs ++ [sy .rightSquare])) r
  | slice {p : Nat} {e a b : Expr} {ts us vs r : List Tok} :
      Writes typ (.chain p e) ts (sy .leftSquare :: (us ++ sy .range :: (vs ++ sy .rightSquare :: r))) → p ≤ 17 →
      Free (us ++ sy .range :: (vs ++ sy .rightSquare :: r)) → Writes typ (.whole 1 a) us (sy .range :: (vs ++ sy .rightSquare :: r)) →
      Free (vs ++ sy .rightSquare :: r) → Writes typ (.whole 1 b) vs (sy .rightSquare :: r) →
      Writes typ (.chain p (.slice e a b)) (ts ++ sy .leftSquare :: (us ++ sy .range :: (vs ++ [sy .rightSquare]))) r
  | call {p : Nat} {e : Expr} {es : List Expr} {s : Bool} {ts us r : List Tok} : Writes typ (.chain p e) ts (sy .leftParen :: (us ++ r)) →
      p ≤ 16 → Writes typ (.args es s) us r → Writes typ (.chain p (.call e es s)) (ts ++ sy .leftParen :: us) r
  | whole {p : Nat} {e : Expr} {ts r : List Tok} : Writes typ (.chain p e) ts r → Stops typ p e r → Writes typ (.whole p e) ts r
  | noArg {r : List Tok} : Writes typ (.args [] Bool.false) [sy .rightParen] r
  | arg {e : Expr} {ts r : List Tok} : Free (ts ++ sy .rightParen :: r) → Writes typ (.whole 1 e) ts (sy .rightParen :: r) →
      Writes typ (.args [e] Bool.false) (ts ++ [sy .rightParen]) r
  | moreArgs {e : Expr} {es : List Expr} {s : Bool} {ts us r : List Tok} : Free (ts ++ sy .comma :: (us ++ r)) →
      Writes typ (.whole 1 e) ts (sy .comma :: (us ++ r)) → Writes typ (.args es s) us r →
      Writes typ (.args (e :: es) s) (ts ++ sy .comma :: us) r
  | spread {e : Expr} {ts r : List Tok} : Free (ts ++ sy .rightParen :: r) → Writes typ (.whole 1 e) ts (sy .rightParen :: r) →
      Writes typ (.args [e] Bool.true) (sy .ellipsis :: (ts ++ [sy .rightParen])) r
  | elem {e : Expr} {ts r : List Tok} : Free (ts ++ sy .rightParen :: r) → Writes typ (.whole 1 e) ts (sy .rightParen :: r) →
      Writes typ (.elems [e]) (ts ++ [sy .rightParen]) r
  | elemComma {e : Expr} {ts r : List Tok} : Free (ts ++ sy .comma :: sy .rightParen :: r) →
      Writes typ (.whole 1 e) ts (sy .comma :: sy .rightParen :: r) → Writes typ (.elems [e]) (ts ++ [sy .comma, sy .rightParen]) r
  | moreElems {e : Expr} {es : List Expr} {ts us r : List Tok} : Free (ts ++ sy .comma :: (us ++ r)) →
      Writes typ (.whole 1 e) ts (sy .comma :: (us ++ r)) → Writes typ (.elems es) us r →
      Writes typ (.elems (e :: es)) (ts ++ sy .comma :: us) r

/-! ### Source text without the known traps -/

/-- The tokens an expression can end with. -/
def ends : Ty → Bool
  | .int | .float | .str | .ident | .sym .rightParen | .sym .rightSquare | .kw .kTrue | .kw .kFalse | .kw .kNull | .kw .kChan => true
  | .kw k => basicType k
  | _ => false

/-- The tokens that the name of something with type arguments can end with. -/
def endsName : Ty → Bool
  | .ident | .sym .rightParen | .kw .kChan => true
  | _ => false

/-- Source text in front of its end: no `!` or `~` after an expression, every `<` after a name means less than. -/
structure Source (typ : List PTok → Option (List PTok)) (ts : List Tok) : Prop where
  eof : ∃ b e, ts = b ++ [e] ∧ e.ty = .eof
  unary : ∀ u a b v, ts = u ++ a :: b :: v → ends a.ty = true → b.ty ≠ .sym .not ∧ b.ty ≠ .sym .tilde
  angle : ∀ u a b v, ts = u ++ a :: b :: v → endsName a.ty = true → b.ty = .sym .leftAngle → ¬ TypeArgs typ (raw v)

end Nature.Parse
