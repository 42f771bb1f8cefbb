import Verif.Types.Sound
/-
C90: the compiler accepts a value where a type is expected exactly when the value's type allows it.

`Spec.lean` says when that is (`Ok`); `accept` (Model.lean) is what `infer_right_expr` decides.
Neither half holds in full; `C90_accepts_partial` and `C90_sound_partial` are the halves that do,
and the counterexamples are programs that are wrongly accepted or wrongly refused.
-/
namespace Nature.Types

/-- Every value that may be put somewhere is accepted there.

Missing: a value that has already the type `i?` of a nullable interface, where `i?` is expected
(`C90_nullable_interface_counterexample`), and a source whose own type is a name that was not
looked up to the end. -/
theorem C90_accepts_partial (heads : String → Head) (impl : String → Ty → Bool) (t s : Ty)
    (ht : t.declared heads = true) (hs : s.declared heads = true) (hk : ¬ Means s .stop)
    (hn : (∀ n a ds, ¬ Means t (.union true (.iface n a :: ds))) ∨ ¬ Fits t s)
    (h : Ok impl t s) : accept impl t s = true :=
  accept_ok heads impl h ht hs hk hn

/-- In particular two ways of writing one type are interchangeable everywhere: inside every other
type, in any order of alternatives, and with any names for unions. -/
theorem C90_same_partial (heads : String → Head) (impl : String → Ty → Bool) (t s : Ty)
    (ht : t.declared heads = true) (hs : s.declared heads = true) (hk : ¬ Means s .stop)
    (hn : ∀ n a ds, ¬ Means t (.union true (.iface n a :: ds)))
    (h : Same t s) : accept impl t s = true :=
  accept_ok heads impl (.fits (.same h)) ht hs hk (.inl hn)

/-- What is accepted may be put there.

Missing: targets with a union, a `ptr`, an interface or a wild card below the outermost part of
the type, and an interface where an interface is expected.  The counterexamples below show that
none of these can be had. -/
theorem C90_sound_partial (impl : String → Ty → Bool) (t s : Ty) (hp : Plain t s)
    (h : accept impl t s = true) : Ok impl t s :=
  accept_sound hp h

/-! ### the theorems say something -/

namespace Ex

def int : Ty := .prim .i64
def bool : Ty := .prim .bool
def str : Ty := .prim .string
def dog : Ty := .named "dog" [] (.struct ["age"] [int])
def reader : Ty := .iface "reader" []
def writer : Ty := .iface "writer" []
def heads : String → Head := fun n => if n = "num" then .union else .other
def impl : String → Ty → Bool
  | "dog", .iface "reader" [] => true
  | _, _ => false
/-- `type num = int | bool` -/
def num : Ty := .named "num" [] (.union false [int, bool])

/-- A map of vectors of unions, written in two ways. -/
example : accept impl (.map str (.vec num)) (.map str (.vec (.union false [bool, int, bool]))) = true :=
  C90_same_partial heads impl _ _ rfl rfl (by intro h; cases h) (by intro n a ds h; cases h)
    (.map (.prim _) (.vec (.openL _ _ rfl rfl (.union _ _
      (.cons (d := bool) (by simp) (.prim _) (.cons (d := int) (by simp) (.prim _)
        (.cons (d := bool) (by simp) (.prim _) (.nil _))))
      (.cons (s := int) (by simp) (.prim _) (.cons (s := bool) (by simp) (.prim _) (.nil _)))))))

/-- A pointer to a dog where something that can be read is expected. -/
example : accept impl reader (.ref dog) = true :=
  C90_accepts_partial heads impl _ _ rfl rfl (by intro h; cases h)
    (.inl (by intro n a ds h; cases h)) (.iface (.ref (.plain _)) rfl)

/-- A dog where something that can be read, or nothing, is expected. -/
example : accept impl (.union true [reader, .prim .null]) dog = true :=
  C90_accepts_partial heads impl _ _ rfl rfl (by intro h; cases h)
    (.inr (by intro h; cases h <;> first
      | (rename_i h; cases h <;> contradiction)
      | (rename_i h _; cases h)
      | (rename_i h _ _; cases h)
      | (rename_i h1 h2 _; cases h2)))
    (.nullable (.plain _) (.direct rfl (by simp)) rfl)

/-- A dog is not a cat, and a vector of dogs is not a vector of numbers. -/
example : accept impl (.named "cat" [] (.struct ["age"] [int])) dog = false := by decide +kernel
example : accept impl (.vec int) (.vec dog) = false := by decide +kernel

/-- An `int` or nothing: the theorem applies and says what was accepted. -/
example (s : Ty) (h : accept impl (.union true [int, .prim .null]) s = true) :
    Ok impl (.union true [int, .prim .null]) s :=
  C90_sound_partial impl _ _ (.union (.plain _) rfl rfl) h

end Ex

open Ex

/-! ### values that are accepted and should not be -/

theorem same_iface {n m : String} {a c : List Ty} (h : Same (.iface n a) (.iface m c)) : n = m := by
  cases h; rfl

/-- Any interface is accepted for any other: a value that is only known to be a `writer` may be
passed where a `reader` is expected, and its methods are then called as those of `reader`. -/
theorem C90_interface_counterexample :
    accept impl reader writer = true ∧ ¬ Ok impl reader writer := by
  refine ⟨by decide +kernel, ?_⟩
  intro h
  cases h with
  | fits h =>
    cases h with
    | same h => exact absurd (same_iface h) (by decide)
    | ptrNull h => cases h
    | ptrRef h => cases h
    | more h => cases h
  | any h => cases h
  | one h => cases h
  | iface h =>
    cases h with
    | ref h => cases h
    | ptr h => cases h
  | nullable h => cases h

/-- What is not a union, `any`, an interface or a `ptr` can only be had by having it. -/
theorem ok_same {t s : Ty} (h : Ok impl t s) (h1 : ∀ f ds, ¬ Means t (.union f ds))
    (h2 : ¬ Means t (.prim .any)) (h3 : t.isIface = false) (h4 : ∀ x, ¬ Means t (.ptr x))
    (h5 : t ≠ .allT ∧ t ≠ .fnT ∧ t ≠ .integerT ∧ t ≠ .floaterT) : Same t s := by
  cases h with
  | fits h =>
    cases h with
    | same h => exact h
    | all => exact absurd rfl h5.1
    | fn => exact absurd rfl h5.2.1
    | integer => exact absurd rfl h5.2.2.1
    | floater => exact absurd rfl h5.2.2.2
    | ptrNull h => exact absurd h (h4 _)
    | ptrRef h => exact absurd h (h4 _)
    | more h => exact absurd h (h1 _ _)
  | any h => exact absurd h h2
  | one h => exact absurd h (h1 _ _)
  | iface => simp [Ty.isIface] at h3
  | nullable h => exact absurd h (h1 _ _)

theorem no_means {t : Ty} (h : core t = t) {c : Ty} (hc : kind0 t ≠ kind0 c) : ¬ Means t c := by
  intro hm
  cases hm with
  | plain => exact hc rfl
  | named n a =>
    simp [core] at h
    have := congrArg sizeOf h
    simp at this

/-- The second time a declared union is met it is taken to match whatever stands there: a pair of
two numbers accepts a pair of a number and a string. -/
theorem C90_second_union_counterexample :
    accept impl (.tuple [num, num]) (.tuple [num, str]) = true ∧
      ¬ Ok impl (.tuple [num, num]) (.tuple [num, str]) := by
  refine ⟨by decide +kernel, ?_⟩
  intro h
  have h := ok_same h (fun _ _ => no_means rfl (by simp [kind0])) (no_means rfl (by simp [kind0]))
    rfl (fun _ => no_means rfl (by simp [kind0])) (by simp)
  cases h with
  | tuple h =>
    cases h with
    | cons _ h =>
      cases h with
      | cons h _ =>
        cases h with
        | openL _ _ _ h => simp [Ty.lists, str] at h

/-- `type json = string | [json]`, as deep as the compiler looks. -/
def json : Ty := .named "json" [] (.union false [str, .vec (.named "json" []
  (.union false [str, .vec (.named "json" [] .stop)]))])

/-- A type that mentions itself accepts anything in the place where it does: a `json` value may be
a vector of booleans. -/
theorem C90_recursive_counterexample :
    accept impl json (.union false [str, .vec bool]) = true ∧
      ¬ Ok impl json (.union false [str, .vec bool]) := by
  refine ⟨by decide +kernel, ?_⟩
  have key : ¬ Among [str, .vec (.named "json" [] (.union false [str, .vec (.named "json" [] .stop)]))]
      [str, .vec bool] := by
    intro h
    cases h with
    | cons _ _ h =>
      cases h with
      | cons hd hs _ =>
        simp at hd
        rcases hd with rfl | rfl
        · cases hs
        · cases hs with
          | vec hs =>
            cases hs with
            | openL _ _ _ h => simp [Ty.lists, Ex.bool] at h
  intro h
  cases h with
  | fits h =>
    cases h with
    | same h =>
      cases h with
      | openL _ _ _ _ h =>
        cases h with
        | union _ _ h _ => exact key h
    | ptrNull h => cases h
    | ptrRef h => cases h
    | more h1 h2 h =>
      cases h1 with
      | named =>
        cases h2 with
        | plain => exact key h
  | any h => cases h
  | one _ _ _ h => exact h _ _ (.plain _)
  | nullable h => cases h

/-- A vector of `int|bool` is accepted as a vector of `int|bool|string`, although both names are
then good for writing to the one vector. -/
theorem C90_vector_counterexample :
    accept impl (.vec (.union false [int, bool, str])) (.vec (.union false [int, bool])) = true ∧
      ¬ Ok impl (.vec (.union false [int, bool, str])) (.vec (.union false [int, bool])) := by
  refine ⟨by decide +kernel, ?_⟩
  intro h
  have h := ok_same h (fun _ _ => no_means rfl (by simp [kind0])) (no_means rfl (by simp [kind0]))
    rfl (fun _ => no_means rfl (by simp [kind0])) (by simp)
  cases h with
  | vec h =>
    cases h with
    | union _ _ _ h =>
      cases h with
      | cons _ _ h =>
        cases h with
        | cons _ _ h =>
          cases h with
          | cons hm hs _ =>
            simp at hm
            rcases hm with rfl | rfl <;> cases hs

/-- A function that takes `int|bool` is accepted where one that takes `int|bool|string` is
expected, and may then be called with a string. -/
theorem C90_function_counterexample :
    accept impl (.fn {} (.prim .void) [.union false [int, bool, str]])
        (.fn {} (.prim .void) [.union false [int, bool]]) = true ∧
      ¬ Ok impl (.fn {} (.prim .void) [.union false [int, bool, str]])
        (.fn {} (.prim .void) [.union false [int, bool]]) := by
  refine ⟨by decide +kernel, ?_⟩
  intro h
  have h := ok_same h (fun _ _ => no_means rfl (by simp [kind0])) (no_means rfl (by simp [kind0]))
    rfl (fun _ => no_means rfl (by simp [kind0])) (by simp)
  cases h with
  | fn _ _ h =>
    cases h with
    | cons h _ =>
      cases h with
      | union _ _ _ h =>
        cases h with
        | cons _ _ h =>
          cases h with
          | cons _ _ h =>
            cases h with
            | cons hm hs _ =>
              simp at hm
              rcases hm with rfl | rfl <;> cases hs

/-- A vector of `ref<int>`, none of which is null, is accepted as a vector of `ptr<int>`, through
which nulls can be put into it. -/
theorem C90_null_counterexample :
    accept impl (.vec (.ptr int)) (.vec (.ref int)) = true ∧
      ¬ Ok impl (.vec (.ptr int)) (.vec (.ref int)) := by
  refine ⟨by decide +kernel, ?_⟩
  intro h
  have h := ok_same h (fun _ _ => no_means rfl (by simp [kind0])) (no_means rfl (by simp [kind0]))
    rfl (fun _ => no_means rfl (by simp [kind0])) (by simp)
  cases h with
  | vec h => cases h

/-- A `ref<dog>` is accepted as a value of `int|ptr<dog>`, although it is neither an `int` nor a
`ptr<dog>`: the value is marked as a `ref<dog>`, an alternative the union does not have. -/
theorem C90_alternative_counterexample :
    accept impl (.union false [int, .ptr dog]) (.ref dog) = true ∧
      ¬ Ok impl (.union false [int, .ptr dog]) (.ref dog) := by
  refine ⟨by decide +kernel, ?_⟩
  intro h
  cases h with
  | fits h =>
    cases h with
    | same h => cases h
    | ptrNull h => cases h
    | ptrRef h => cases h
    | more _ h => cases h
  | any h => cases h
  | one h _ _ _ hd hs =>
    cases h
    simp at hd
    rcases hd with rfl | rfl <;> cases hs
  | nullable h => cases h

/-! ### a value that is refused and should not be -/

/-- A variable of type `reader?` cannot be assigned to a variable of type `reader?`. -/
theorem C90_nullable_interface_counterexample :
    (∀ impl, Ok impl (.union true [reader, .prim .null]) (.union true [reader, .prim .null])) ∧
      ∀ impl, accept impl (.union true [reader, .prim .null]) (.union true [reader, .prim .null])
        = false :=
  ⟨fun _ => .fits (.same (same_refl _)), fun _ => rfl⟩

end Nature.Types
