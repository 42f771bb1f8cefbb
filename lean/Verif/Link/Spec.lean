import Verif.Link.Input

/-!
# Which objects are linked, and which definition a name gets

The specification side of C108.  `sel` tells which objects are linked.
-/

namespace Nature.Link.Spec

/-- Object `p.1` has the symbol `s` as number `p.2`. -/
def Has (objs : List Obj) (p : Pos) (s : Sym) : Prop :=
  ∃ o, objs[p.1]? = some o ∧ o.syms[p.2]? = some s

/-- Object `p.1` is linked and its symbol number `p.2` is a definition of `name`. -/
def Defines (objs : List Obj) (sel : Nat → Bool) (name : String) (weak : Bool) (p : Pos) : Prop :=
  sel p.1 = true ∧ Has objs p ⟨name, .regular, weak⟩

/-- A linked object asks for storage for `name`. -/
def Requests (objs : List Obj) (sel : Nat → Bool) (name : String) (size align : Nat) (tls weak : Bool) :
    Prop :=
  ∃ p : Pos, sel p.1 = true ∧ Has objs p ⟨name, .common size align tls, weak⟩

/-- A linked object needs `name`, or it is where the program starts. -/
def Needs (objs : List Obj) (entry : String) (sel : Nat → Bool) (name : String) : Prop :=
  name = entry ∨ ∃ p : Pos, sel p.1 = true ∧ Has objs p ⟨name, .undefined true, false⟩

/-- Position `p` comes before `q`. -/
def Before (p q : Pos) : Prop := p.1 < q.1 ∨ p.1 = q.1 ∧ p.2 < q.2

/-- Object `i` is a member of an archive that is not linked yet and has a definition of, or asks for
storage for, a name that is needed and that no linked object defines; or it has a definition of a
name for which a linked object only asks for storage. -/
def Useful (objs : List Obj) (entry : String) (sel : Nat → Bool) (i : Nat) : Prop :=
  sel i = false ∧ (∃ o, objs[i]? = some o ∧ o.isLazy = true) ∧
    ∃ j s, Has objs (i, j) s ∧ (∀ weak p, ¬ Defines objs sel s.name weak p) ∧
      ((Needs objs entry sel s.name ∧ ∀ used, s.kind ≠ .undefined used) ∨
        s.kind = .regular ∧ ∃ size align tls, Requests objs sel s.name size align tls false)

/-- The sets of objects that come about by starting with the files of the command line and adding
useful members of archives one after the other. -/
inductive Grown (objs : List Obj) (entry : String) : (Nat → Bool) → Prop where
  | start : Grown objs entry fun i => match objs[i]? with
      | some o => !o.isLazy
      | none => false
  | add {sel : Nat → Bool} {i : Nat} : Grown objs entry sel → Useful objs entry sel i →
      Grown objs entry fun k => if k = i then true else sel k

end Nature.Link.Spec
