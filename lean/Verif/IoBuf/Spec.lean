import Verif.IoBuf.Model
/-! The buffer as a queue of bytes, and vectors as independent lists. -/
namespace Nature.IoBuf
open Nature Nature.Vec

/-- The unread bytes and the contents of each vector. -/
structure Abs where
  queue : List Elem
  vecs : List (List Elem)
  deriving DecidableEq

/-- One step, on plain lists. -/
def specStep (s : Abs) : Op → Abs × Out
  | .vec xs => (⟨s.queue, s.vecs ++ [xs]⟩, .unit)
  | .set i j x =>
    match s.vecs[i]? with
    | none => (s, .badVar)
    | some xs => if j < xs.length then (⟨s.queue, s.vecs.set i (xs.set j x)⟩, .unit) else (s, .throws)
  | .write i =>
    match s.vecs[i]? with
    | none => (s, .badVar)
    | some xs => (⟨s.queue ++ xs, s.vecs⟩, .nat xs.length)
  | .writeByte x => (⟨s.queue ++ [x], s.vecs⟩, .unit)
  | .read i =>
    match s.vecs[i]? with
    | none => (s, .badVar)
    | some xs =>
      if s.queue = [] then (s, if xs = [] then .nat 0 else .eof)
      else
        let n := min xs.length s.queue.length
        (⟨s.queue.drop n, s.vecs.set i (s.queue.take n ++ xs.drop n)⟩, .nat n)
  | .readAll => (⟨[], s.vecs ++ [s.queue]⟩, .bytes s.queue)
  | .truncate n =>
    if 0 ≤ n ∧ n ≤ s.queue.length then (⟨s.queue.take n.toNat, s.vecs⟩, .unit) else (s, .panic)
  | .len => (s, .nat s.queue.length)
  | .empty => (s, .bool (decide (s.queue = [])))

/-- Run a program on plain lists. -/
def specRun : Abs → List Op → Abs × List Out
  | s, [] => (s, [])
  | s, op :: ops =>
    let r := specStep s op
    let t := specRun r.1 ops
    (t.1, r.2 :: t.2)

/-- Bytes written by one step. -/
def wrote (s : Abs) : Op → Nat
  | .write i => ((s.vecs[i]?).getD []).length
  | .writeByte _ => 1
  | _ => 0

/-- Bytes written by a program. -/
def totalWritten : Abs → List Op → Nat
  | _, [] => 0
  | s, op :: ops => wrote s op + totalWritten (specStep s op).1 ops

end Nature.IoBuf
