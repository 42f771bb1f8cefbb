import Verif.Global.Model
import Verif.Literal.Spec

/-!
# What a global variable holds

Values, what an initializer denotes, and what it means that memory holds a value.  Types, initializers and the layout of fields
(`size`, `offset`; see C60) are shared with the model, its functions are not.
-/

namespace Nature.Global

open Literal (Kind Written)

/-- Values a global variable can start with. -/
inductive Val
  | bool (b : Bool)
  | int (v : Int)
  | float (w : List Char)
  | null
  | empty
  | agg (vs : List Val)

/-- The number in `n` bytes, the least significant byte first. -/
def number (m : Mem) (o : Nat) : Nat → Nat
  | 0 => 0
  | n + 1 => number m o n + (m (o + n)).toNat * 256 ^ n

/-- The number in `n` bytes, in two's complement. -/
def signedNumber (m : Mem) (o n : Nat) : Int := if 2 * number m o n < 256 ^ n then number m o n else (number m o n : Int) - 256 ^ n

/-- The bytes of a variable of an integer type have the value `v`. -/
def HasInt (m : Mem) (o : Nat) : Kind → Int → Prop
  | .u8, v => (number m o 1 : Int) = v
  | .u16, v => (number m o 2 : Int) = v
  | .u32, v => (number m o 4 : Int) = v
  | .u64, v => (number m o 8 : Int) = v
  | .i8, v => signedNumber m o 1 = v
  | .i16, v => signedNumber m o 2 = v
  | .i32, v => signedNumber m o 4 = v
  | .i64, v => signedNumber m o 8 = v

/-- The words from `o` on. -/
def Words (m : Mem) (o : Nat) (ws : List (BitVec 64)) : Prop := ∀ i w, ws[i]? = some w → number m (o + 8 * i) 8 = w.toNat

/-- Memory at `o` holds a value of a type, as compiled code sees it: an empty container has no data, length and capacity zero, and its
element size and hashes; a nullable type that is null points to the description of null. -/
inductive Holds (E : Env) (m : Mem) : Ty → Nat → Val → Prop
  | bool {o b} : m o = (if b then 1 else 0) → Holds E m .bool o (.bool b)
  | int {o k v} : HasInt m o k v → Holds E m (.int k) o (.int v)
  | anyptr {o v} : HasInt m o .u64 v → Holds E m .anyptr o (.int v)
  | f32 {o w} : number m o 4 = (E.f32 w).toNat → Holds E m .f32 o (.float w)
  | f64 {o w} : number m o 8 = (E.f64 w).toNat → Holds E m .f64 o (.float w)
  /-- The number zero, without a text. -/
  | f32zero {o} : number m o 4 = 0 → Holds E m .f32 o (.int 0)
  | f64zero {o} : number m o 8 = 0 → Holds E m .f64 o (.int 0)
  | ptr {o} : number m o 8 = 0 → Holds E m .ptr o .null
  | string {o} : Words m o [0, 0, 0, 1, E.hash .string, 0] → Holds E m .string o .empty
  | vec {o e} : Words m o [0, 0, 0, BitVec.ofNat 64 (size e), E.hash (.vec e), 0] → Holds E m (.vec e) o .empty
  | map {o k v} : Words m o [0, 0, 0, E.hash k, E.hash v, 0, 0] → Holds E m (.map k v) o .empty
  | set {o e} : Words m o [0, 0, E.hash e, 0, 0] → Holds E m (.set e) o .empty
  | nullable {o e} : Words m o [E.nullRtype] → Holds E m (.nullable e) o .null
  | any {o} : Words m o [E.nullRtype] → Holds E m .any o .null
  | arr {o e n vs} : vs.length = n → (∀ (i : Nat) v, vs[i]? = some v → Holds E m e (o + i * size e) v) → Holds E m (.arr e n) o (.agg vs)
  | tuple {o ts vs} : vs.length = ts.toList.length →
      (∀ (i : Nat) t a v, ts.toList[i]? = some t → offset ts i = some a → vs[i]? = some v → Holds E m t (o + a) v) → Holds E m (.tuple ts) o (.agg vs)
  | struct {o names ts vs} : vs.length = ts.toList.length →
      (∀ (i : Nat) t a v, ts.toList[i]? = some t → offset ts i = some a → vs[i]? = some v → Holds E m t (o + a) v) →
      Holds E m (.struct names ts) o (.agg vs)

/-- The value of a type where nothing is written. -/
inductive Default : Ty → Val → Prop
  | bool : Default .bool (.bool false)
  | int {k} : Default (.int k) (.int 0)
  | anyptr : Default .anyptr (.int 0)
  | f32 : Default .f32 (.int 0)
  | f64 : Default .f64 (.int 0)
  | ptr : Default .ptr .null
  | string : Default .string .empty
  | vec {e} : Default (.vec e) .empty
  | map {k v} : Default (.map k v) .empty
  | set {e} : Default (.set e) .empty
  | nullable {e} : Default (.nullable e) .null
  | any : Default .any .null
  | arr {e n vs} : vs.length = n → (∀ v, v ∈ vs → Default e v) → Default (.arr e n) (.agg vs)
  | tuple {ts vs} : vs.length = ts.toList.length → (∀ (i : Nat) t v, ts.toList[i]? = some t → vs[i]? = some v → Default t v) →
      Default (.tuple ts) (.agg vs)
  | struct {names ts vs} : vs.length = ts.toList.length → (∀ (i : Nat) t v, ts.toList[i]? = some t → vs[i]? = some v → Default t v) →
      Default (.struct names ts) (.agg vs)

/-- An initializer denotes a value of a type.  `A` limits the numbers in casts (all are allowed by the full property). -/
inductive Denotes (A : Kind → Int → Prop) : Ty → Init → Val → Prop
  | bool {b} : Denotes A .bool (.lit (.bool b)) (.bool b)
  | int {k neg w v} : Written neg w v → k.Has v → Denotes A (.int k) (.lit (.int neg w)) (.int v)
  | cast {k neg w v} : Written neg w v → k.Has v → A k v → Denotes A (.int k) (.as k neg w) (.int v)
  | anyptr {neg w v} : Written neg w v → Kind.Has .u64 v → Denotes A .anyptr (.lit (.int neg w)) (.int v)
  | anyptrNull : Denotes A .anyptr (.lit .null) (.int 0)
  | f32 {w} : Denotes A .f32 (.lit (.float w)) (.float w)
  | f64 {w} : Denotes A .f64 (.lit (.float w)) (.float w)
  | f32int {w} : Denotes A .f32 (.lit (.int false w)) (.float w)
  | f64int {w} : Denotes A .f64 (.lit (.int false w)) (.float w)
  | f32neg {w} : Denotes A .f32 (.lit (.int true w)) (.float ('-' :: w))
  | f64neg {w} : Denotes A .f64 (.lit (.int true w)) (.float ('-' :: w))
  | ptr : Denotes A .ptr (.lit .null) .null
  | nullable {e} : Denotes A (.nullable e) (.lit .null) .null
  | string : Denotes A .string (.lit (.str 0)) .empty
  | vec {e} : Denotes A (.vec e) (.vec .nil) .empty
  | map {k v} : Denotes A (.map k v) (.map .nil) .empty
  | set {e} : Denotes A (.set e) (.set .nil) .empty
  | mapCurly {k v} : Denotes A (.map k v) .curly .empty
  | setCurly {e} : Denotes A (.set e) .curly .empty
  | dflt {t v} : Default t v → Denotes A t .dflt v
  /-- The elements that are written, and default values behind them. -/
  | arr {e n es vs ds} : es.toList.length = vs.length → vs.length + ds.length = n →
      (∀ (i : Nat) x v, es.toList[i]? = some x → vs[i]? = some v → Denotes A e x v) → (∀ v, v ∈ ds → Default e v) →
      Denotes A (.arr e n) (.arr es) (.agg (vs ++ ds))
  | rep {e x neg w v} {n : Nat} : Written neg w (n : Int) → n < 2 ^ 63 → Denotes A e x v → Denotes A (.arr e n) (.rep x neg w) (.agg (List.replicate n v))
  | tuple {ts es vs} : es.toList.length = ts.toList.length → vs.length = ts.toList.length →
      (∀ (i : Nat) t x v, ts.toList[i]? = some t → es.toList[i]? = some x → vs[i]? = some v → Denotes A t x v) → Denotes A (.tuple ts) (.tuple es) (.agg vs)
  /-- A field has the value written with its name, or the default value of its type. -/
  | struct {names ts ns es vs} : names.Nodup → names.length = ts.toList.length → ns.Nodup → es.toList.length = ns.length →
      (∀ n, n ∈ ns → n ∈ names) → vs.length = ts.toList.length →
      (∀ (p i n : Nat) t x v, ns[p]? = some n → es.toList[p]? = some x → names[i]? = some n → ts.toList[i]? = some t → vs[i]? = some v →
        Denotes A t x v) →
      (∀ (i n : Nat) t v, names[i]? = some n → n ∉ ns → ts.toList[i]? = some t → vs[i]? = some v → Default t v) →
      Denotes A (.struct names ts) (.struct ns es) (.agg vs)

mutual
/-- Nothing of a nullable type, and nothing of type any, outside of vectors, maps and sets. -/
def Plain : Ty → Prop
  | .nullable _ => False
  | .any => False
  | .arr e _ => Plain e
  | .tuple ts => PlainAll ts
  | .struct _ ts => PlainAll ts
  | _ => True
def PlainAll : Tys → Prop
  | .nil => True
  | .cons t rest => Plain t ∧ PlainAll rest
end

end Nature.Global
