import Verif.Vec.Model
/-!
Specification vocabulary for vectors, in terms of observable contents.
-/
namespace Nature.Vec
open Nature

/-- Vector `v` shows the list `xs`: it has that many elements and element `i` in memory is `xs[i]`. -/
def Shows (m : Mem) (v : Vec) (xs : List Elem) : Prop :=
  xs.length = v.len ∧ ∀ i x, xs[i]? = some x → load m v.blk (v.off + i) = some x

/-- A header the runtime can produce: the count is at most the capacity and all `cap` cells exist. -/
def WF (m : Mem) (v : Vec) : Prop :=
  v.len ≤ v.cap ∧ ∀ i, i < v.cap → ∃ x, load m v.blk (v.off + i) = some x

/-- Cell `i` of block `b` lies in the visible part of `w`. -/
def Covers (w : Vec) (b : Option Nat) (i : Nat) : Prop := w.blk = b ∧ w.off ≤ i ∧ i < w.off + w.len

/-- Abstract operations on a family of independent lists. -/
inductive Op where
  | new (len : Int) (x : Elem)
  | cap (c : Int)
  | push (i : Nat) (x : Elem)
  | get (i idx : Nat)
  | set (i idx : Nat) (x : Elem)
  | append (i j : Nat)
  | concat (i j : Nat)
  | copy (i j : Nat)
  | len (i : Nat)

/-- What the program observes. -/
inductive Out where
  | unit
  | elem (x : Elem)
  | nat (n : Nat)
  | throws
  | badVar
  deriving DecidableEq, Repr

/-- The specification: plain list operations. -/
def specStep (s : List (List Elem)) : Op → List (List Elem) × Out
  | .new len x => if len < 0 then (s, .throws) else (s ++ [List.replicate len.toNat x], .unit)
  | .cap c => if c < 0 then (s, .throws) else (s ++ [[]], .unit)
  | .push i x =>
    match s[i]? with
    | some xs => (s.set i (xs ++ [x]), .unit)
    | none => (s, .badVar)
  | .get i idx =>
    match s[i]? with
    | some xs => (s, match xs[idx]? with | some x => .elem x | none => .throws)
    | none => (s, .badVar)
  | .set i idx x =>
    match s[i]? with
    | some xs => if idx < xs.length then (s.set i (xs.set idx x), .unit) else (s, .throws)
    | none => (s, .badVar)
  | .append i j =>
    match s[i]?, s[j]? with
    | some xs, some ys => (s.set i (xs ++ ys), .unit)
    | _, _ => (s, .badVar)
  | .concat i j =>
    match s[i]?, s[j]? with
    | some xs, some ys => (s ++ [xs ++ ys], .unit)
    | _, _ => (s, .badVar)
  | .copy i j =>
    match s[i]?, s[j]? with
    | some xs, some ys =>
      let n := min xs.length ys.length
      (s.set i (ys.take n ++ xs.drop n), .nat n)
    | _, _ => (s, .badVar)
  | .len i =>
    match s[i]? with
    | some xs => (s, .nat xs.length)
    | none => (s, .badVar)

/-- Run a list of operations, collecting outputs. -/
def specRun : List (List Elem) → List Op → List Out
  | _, [] => []
  | s, op :: ops => (specStep s op).2 :: specRun (specStep s op).1 ops

end Nature.Vec
