import Verif.Resolve.Model
/-! What the instructions inserted on an edge must do (C37). -/
namespace Nature.Resolve

abbrev State (V : Type) := Loc → V

/-- `K c` is the value of constant number `c`. -/
def exec {V : Type} (K : Nat → V) (σ : State V) : Ins → State V
  | .mov s d => fun l => if l = d then σ s else σ l
  | .const c d => fun l => if l = d then K c else σ l

def run {V : Type} (K : Nat → V) (σ : State V) (l : List Ins) : State V := l.foldl (exec K) σ

/-- Every target location ends with the value its source had before (for a recomputed
constant: with the constant, if the target is a register; nothing reads it from a slot),
and no other location changes, except the home slots of the source variables. -/
def Delivered {V : Type} (K : Nat → V) (l : List Item) (σ σ' : State V) : Prop :=
  (∀ it ∈ l, (it.const = none → σ' it.dst = σ it.src) ∧
    (∀ c r, it.const = some c → it.dst = .reg r → σ' it.dst = K c)) ∧
  (∀ x, (∀ it ∈ l, it.dst ≠ x ∧ .stack it.home ≠ x) → σ' x = σ x)

/-- The mappings the register allocator produces. -/
structure Mapping (l : List Item) : Prop where
  /-- two variables never share a location -/
  distinct : (l.map Item.dst).Nodup
  /-- no move from a slot to a slot (otherwise the compiler aborts) -/
  noSlotToSlot : ∀ it ∈ l, ¬ (it.src.isStack = true ∧ it.dst.isStack = true)
  /-- no slot is both read and written -/
  slots : ∀ a ∈ l, ∀ b ∈ l, ∀ s, a.src = .stack s → b.dst ≠ .stack s
  /-- a variable's home slot receives only that variable -/
  homeDst : ∀ a ∈ l, ∀ b ∈ l, b.dst = .stack a.home → b.src = a.src
  homeHome : ∀ a ∈ l, ∀ b ∈ l, a.home = b.home → b.src = a.src
  /-- a variable that is in its home slot has no other source location -/
  homeSrc : ∀ a ∈ l, ∀ b ∈ l, b.src = .stack a.home → a.src = .stack a.home
  /-- fewer than 256 targets are loaded from one register (the counters are 8 bits wide) -/
  counters : ∀ r, l.countP (fun it => it.src == .reg r) < 256

end Nature.Resolve
