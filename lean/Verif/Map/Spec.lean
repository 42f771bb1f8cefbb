import Verif.Map.Model
/-! Specification of finite maps: association lists with one pair per key. -/
namespace Nature.Map
open Nature

inductive Op (K V : Type) where
  | assign (k : K) (v : V)
  | delete (k : K)
  | access (k : K)
  | contains (k : K)
  | len

/-- What the program observes; `abort` ends the process. -/
inductive Out (V : Type) where
  | unit
  | value (v : V)
  | notFound
  | bool (b : Bool)
  | nat (n : Nat)
  | abort
  | ub
  deriving DecidableEq, Repr

variable {K V : Type} [DecidableEq K]

/-- Value of key `k`. -/
def lookup (s : List (K × V)) (k : K) : Option V := (s.find? fun p => decide (p.1 = k)).map Prod.snd

/-- Abstract finite map operations. -/
def specStep (s : List (K × V)) : Op K V → List (K × V) × Out V
  | .assign k v => ((k, v) :: s.filter (fun p => decide (p.1 ≠ k)), .unit)
  | .delete k => (s.filter (fun p => decide (p.1 ≠ k)), .unit)
  | .access k => (s, match lookup s k with | some v => .value v | none => .notFound)
  | .contains k => (s, .bool (lookup s k).isSome)
  | .len => (s, .nat s.length)

/-- Abstract state after a history. -/
def specState : List (K × V) → List (Op K V) → List (K × V)
  | s, [] => s
  | s, op :: ops => specState (specStep s op).1 ops

/-- Answers to a history. -/
def specRun : List (K × V) → List (Op K V) → List (Out V)
  | _, [] => []
  | s, op :: ops => (specStep s op).2 :: specRun (specStep s op).1 ops

variable {I : Type} [DecidableEq I]

/-- One operation of the runtime. -/
def implStep (o : KeyOps K I) (zk : K) (zv : V) (m : Map K V) : Op K V → Res (Map K V × Out V)
  | .assign k v => (assign o zk zv m k v).bind fun m => .ok (m, .unit)
  | .delete k => (delete o zk zv m k).bind fun m => .ok (m, .unit)
  | .access k =>
    match access o m k with
    | .ok v => .ok (m, .value v)
    | .throws => .ok (m, .notFound)
    | .abort => .abort
    | .ub => .ub
  | .contains k => (contains o m k).bind fun b => .ok (m, .bool b)
  | .len => .ok (m, .nat m.len)

/-- Run a history on the runtime map; an abort is the last observation. -/
def implRun (o : KeyOps K I) (zk : K) (zv : V) : Map K V → List (Op K V) → List (Out V)
  | _, [] => []
  | m, op :: ops =>
    match implStep o zk zv m op with
    | .ok r => r.2 :: implRun o zk zv r.1 ops
    | .throws => [.notFound]
    | .abort => [.abort]
    | .ub => [.ub]

/-- The runtime state reached by a history, if it does not abort. -/
def implState (o : KeyOps K I) (zk : K) (zv : V) : Map K V → List (Op K V) → Res (Map K V)
  | m, [] => .ok m
  | m, op :: ops => (implStep o zk zv m op).bind fun r => implState o zk zv r.1 ops

end Nature.Map
