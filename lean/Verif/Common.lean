/-!
Outcomes shared by the models.

The C and nature code has four kinds of outcome for a call and the models keep them apart:
a normal result, a language-level error raised through the runtime's throw machinery, a failed `assert`/`panic`
(the process dies) and undefined behaviour (out-of-bounds access, etc.).
-/
namespace Nature

/-- Outcome of a modelled call. -/
inductive Res (α : Type u) where
  /-- normal return -/
  | ok (a : α)
  /-- the call raises a catchable language-level error -/
  | throws
  /-- an `assert` fails or the runtime panics: the process terminates -/
  | abort
  /-- undefined behaviour in C -/
  | ub
  deriving Repr, DecidableEq

namespace Res

/-- Sequencing: anything but a normal return is propagated. -/
@[inline] def bind {α : Type u} {β : Type v} : Res α → (α → Res β) → Res β
  | ok a, f => f a
  | throws, _ => throws
  | abort, _ => abort
  | ub, _ => ub

@[simp] theorem bind_ok {α : Type u} {β : Type v} (a : α) (f : α → Res β) : (Res.ok a).bind f = f a := rfl
@[simp] theorem bind_throws {α : Type u} {β : Type v} (f : α → Res β) : (Res.throws : Res α).bind f = .throws := rfl
@[simp] theorem bind_abort {α : Type u} {β : Type v} (f : α → Res β) : (Res.abort : Res α).bind f = .abort := rfl
@[simp] theorem bind_ub {α : Type u} {β : Type v} (f : α → Res β) : (Res.ub : Res α).bind f = .ub := rfl

instance : Monad Res where
  pure := ok
  bind := bind

@[simp] theorem ok_bind {α : Type u} {β : Type u} (a : α) (f : α → Res β) : (Res.ok a >>= f) = f a := rfl
@[simp] theorem throws_bind {α : Type u} {β : Type u} (f : α → Res β) : ((Res.throws : Res α) >>= f) = .throws := rfl
@[simp] theorem abort_bind {α : Type u} {β : Type u} (f : α → Res β) : ((Res.abort : Res α) >>= f) = .abort := rfl
@[simp] theorem ub_bind {α : Type u} {β : Type u} (f : α → Res β) : ((Res.ub : Res α) >>= f) = .ub := rfl
@[simp] theorem pure_eq {α : Type u} (a : α) : (pure a : Res α) = .ok a := rfl

end Res
end Nature
