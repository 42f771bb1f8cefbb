import Verif.Global.Value

/-!
# C102: a global variable starts with the value of its initializer
-/

namespace Nature.Global

open Literal (Kind Written)

/-- C102 (partial): when the program starts, a global variable holds the value its initializer denotes.  Partial: no part of the variable is
of a nullable type or any (the variable itself may be of a nullable type), and numbers of 2^63 and more are not in casts. -/
theorem C102_value_partial (E : Env) {t : Ty} {e : Init} {v : Val} (h : Denotes (fun _ v => v < 2 ^ 63) t e v)
    (hp : Plain t ∨ ∃ u, t = .nullable u) (o : Nat) (m : Mem) : ∃ m', initial E t e o m = some m' ∧ Holds E m' t o v := by
  rcases hp with hp | ⟨u, rfl⟩
  · obtain ⟨m', h1, h2⟩ := value_holds (E := E) (fun _ _ h => h) h hp o (zero m o (size t))
    refine ⟨m', ?_, h2⟩
    rw [initial, h1, Option.map_some, Option.some.injEq]
    unfold startup
    split
    · rw [Plain] at hp; exact hp.elim
    · rfl
  · have key : writeExpr E (.nullable u) e o (zero m o (size (.nullable u))) = some (zero (zero m o (size (.nullable u))) o (size (.nullable u))) ∧
        v = .null := by
      cases h with
      | nullable => exact ⟨by rw [writeExpr, inferLit, Option.bind_some, writeLiteral], rfl⟩
      | dflt h => cases h; exact ⟨by rw [writeExpr, writeDefault], rfl⟩
    obtain ⟨key, rfl⟩ := key
    have h8 := size_nullable u
    refine ⟨_, by rw [initial, key, Option.map_some, startup, if_pos]; simp only [List.all_eq_true, List.mem_range, beq_iff_eq]; intro i hi; exact zero_in (by omega) (by omega), .nullable ?_⟩
    exact words_cons putWord_number words_nil

/-- C102: whatever the initializer is, if it is accepted, only the variable changes. -/
theorem C102_frame (E : Env) {t : Ty} {e : Init} {o : Nat} {m m' : Mem} (h : initial E t e o m = some m') (x : Nat)
    (hx : x < o ∨ o + size t ≤ x) : m' x = m x := by
  rw [initial, Option.map_eq_some_iff] at h
  obtain ⟨m1, h1, rfl⟩ := h
  have := expr_frame E e t o _ m1 x h1 hx
  rw [zero_out hx] at this
  unfold startup
  split
  · next u =>
    have := size_nullable u
    split
    · rw [putWord_out (by omega)]; assumption
    · assumption
  · assumption

/-- C102: what cannot be a value of the type is reported: too many elements of an array, another number of members of a tuple, a field that
is not in the struct, and containers that are not empty. -/
theorem C102_reported (E : Env) (o : Nat) (m : Mem) :
    (∀ e n es, n < es.toList.length → initial E (.arr e n) (.arr es) o m = none) ∧
    (∀ ts es, es.toList.length ≠ ts.toList.length → initial E (.tuple ts) (.tuple es) o m = none) ∧
    (∀ names ts ns es n, n ∈ ns → n ∉ names → es.toList.length = ns.length → initial E (.struct names ts) (.struct ns es) o m = none) ∧
    (∀ t es, es.toList ≠ [] → initial E t (.vec es) o m = none ∧ initial E t (.map es) o m = none ∧ initial E t (.set es) o m = none) := by
  have hl : ∀ es, (writers E es).length = es.toList.length := fun es => by rw [writers_eq, List.length_map]
  refine ⟨?_, ?_, ?_, ?_⟩
  · intro e n es h
    simp only [initial, writeExpr]
    rw [hl, if_neg (by omega)]; rfl
  · intro ts es h
    simp only [initial, writeExpr]
    rw [hl, if_neg h]; rfl
  · intro names ts ns es n h1 h2 h3
    simp only [initial, writeExpr]
    have key : ∀ (fs : List (Mem → Option Mem)) f, f ∈ fs → (∀ m, f m = none) → ∀ m, runAll fs m = none := by
      intro fs
      induction fs with
      | nil => intro f hf; simp at hf
      | cons g gs ih =>
        intro f hf hn m
        rw [runAll]
        rcases List.mem_cons.1 hf with rfl | hf
        · rw [hn, Option.bind_none]
        · cases hg : g m with
          | none => rfl
          | some m1 => rw [Option.bind_some]; exact ih f hf hn m1
    obtain ⟨p, hp⟩ := List.getElem?_of_mem h1
    have hpl := (List.getElem?_eq_some_iff.1 hp).1
    have hw := List.getElem?_eq_getElem (l := writers E es) (i := p) (by rw [hl]; omega)
    have := (List.getElem?_zipWith_eq_some (f := writeNamed names ts o)).2 ⟨n, _, hp, hw, rfl⟩
    rw [key _ _ (List.mem_of_getElem? this), Option.map_none]
    intro m
    have hf : names.findIdx? (· == n) = none := by
      rw [List.findIdx?_eq_none_iff]
      intro x hx
      simp only [beq_eq_false_iff_ne, ne_eq]
      intro e
      exact h2 (e ▸ hx)
    simp only [writeNamed, hf]
  · intro t es h
    have h0 : (writers E es).length ≠ 0 := by rw [hl]; exact fun e => h (List.eq_nil_of_length_eq_zero e)
    refine ⟨?_, ?_, ?_⟩ <;> cases t <;> simp only [initial, writeExpr, Option.map_none] <;> rw [if_neg h0] <;> rfl

/-! ### Cases -/

/-- `struct{ u16 a = …; [i32;3] b; string c; (bool, u64) d }`. -/
def sample : Ty := .struct [1, 2, 3, 4] (.cons (.int .u16) (.cons (.arr (.int .i32) 3) (.cons .string (.cons (.tuple (.cons .bool (.cons (.int .u64) .nil))) .nil))))

/-- `{ d = (true, 18446744073709551615), b = [-7], a = 258 }`: the fields in another order, `c` left out. -/
def sampleInit : Init := .struct [4, 2, 1]
  (.cons (.tuple (.cons (.lit (.bool true)) (.cons (.lit (.int false "18446744073709551615".toList)) .nil)))
    (.cons (.arr (.cons (.lit (.int true ['7'])) .nil)) (.cons (.lit (.int false ['2', '5', '8'])) .nil)))

def sampleVal : Val := .agg [.int 258, .agg [.int (-7), .int 0, .int 0], .empty, .agg [.bool true, .int 18446744073709551615]]

private theorem dec (neg : Bool) (w : List Char) (n : Nat) (h : ∀ c ∈ w, '0' ≤ c ∧ c ≤ '9') (h2 : Scan.valueOf 10 w = n)
    (h3 : w.head? ≠ some '0') (h4 : w ≠ []) : Written neg w (if neg then -(n : Int) else n) := by
  refine ⟨n, ⟨h, h2, .inr ?_⟩, rfl⟩
  cases w with
  | nil => exact absurd rfl h4
  | cons c r => exact ⟨c, r, rfl, fun e => h3 (by rw [e]; rfl)⟩

theorem sample_denotes (A : Kind → Int → Prop) : Denotes A sample sampleInit sampleVal := by
  have d1 : Denotes A (.int .u16) (.lit (.int false ['2', '5', '8'])) (.int 258) :=
    .int (dec false _ 258 (by decide) (by decide) (by decide) (by decide)) (by constructor <;> decide)
  have d2 : Denotes A (.int .i32) (.lit (.int true ['7'])) (.int (-7)) :=
    .int (dec true _ 7 (by decide) (by decide) (by decide) (by decide)) (by constructor <;> decide)
  have d3 : Denotes A (.int .u64) (.lit (.int false "18446744073709551615".toList)) (.int 18446744073709551615) :=
    .int (dec false _ 18446744073709551615 (by decide +kernel) (by decide +kernel) (by decide) (by decide)) (by constructor <;> decide)
  have d4 : Denotes A (.tuple (.cons .bool (.cons (.int .u64) .nil)))
      (.tuple (.cons (.lit (.bool true)) (.cons (.lit (.int false "18446744073709551615".toList)) .nil))) (.agg [.bool true, .int 18446744073709551615]) := by
    refine .tuple rfl rfl ?_
    intro i t x v h1 h2 h3
    rcases i with _ | _ | i <;> simp [Tys.toList, Inits.toList] at h1 h2 h3 <;> obtain ⟨rfl, rfl, rfl⟩ := And.intro h1 (And.intro h2 h3)
    · exact .bool
    · exact d3
  have d5 : Denotes A (.arr (.int .i32) 3) (.arr (.cons (.lit (.int true ['7'])) .nil)) (.agg ([.int (-7)] ++ [.int 0, .int 0])) := by
    refine .arr rfl rfl ?_ ?_
    · intro i x v h2 h3
      rcases i with _ | i <;> simp [Inits.toList] at h2 h3
      obtain ⟨rfl, rfl⟩ := And.intro h2 h3
      exact d2
    · intro v hv
      simp at hv
      subst hv
      exact .int
  refine .struct (by decide) rfl (by decide) rfl (by decide) rfl ?_ ?_
  · intro p i n t x v h1 h2 h3 h4 h5
    rcases p with _ | _ | _ | p <;> simp [Inits.toList] at h1 h2 <;> subst h1 <;> subst h2 <;>
      rcases i with _ | _ | _ | _ | i <;> simp [Tys.toList] at h3 h4 h5 <;> subst h4 <;> subst h5
    · exact d4
    · exact d5
    · exact d1
  · intro i n t v h1 h2 h3 h4
    rcases i with _ | _ | _ | _ | i <;> simp [Tys.toList] at h1 h3 h4 <;> subst h1 <;> simp at h2
    subst h3; subst h4
    exact .string

/-- The sample starts as it is written. -/
example (E : Env) (o : Nat) (m : Mem) : ∃ m', initial E sample sampleInit o m = some m' ∧ Holds E m' sample o sampleVal :=
  C102_value_partial E (sample_denotes _) (.inl (by simp [sample, Plain, PlainAll])) o m

/-- `int? x = null`. -/
example (E : Env) (o : Nat) (m : Mem) : ∃ m', initial E (.nullable (.int .i64)) (.lit .null) o m = some m' ∧ Holds E m' (.nullable (.int .i64)) o .null :=
  C102_value_partial E .nullable (.inr ⟨_, rfl⟩) o m

/-- A vector that is not empty is reported. -/
example (E : Env) (o : Nat) (m : Mem) : initial E (.vec (.int .i64)) (.vec (.cons (.lit (.int false ['1'])) .nil)) o m = none := by
  simp [initial, writeExpr, writers]

/-! ### Counterexamples -/

/-- C102 (counterexample): a field, or an element, of a nullable type does not start as null: its description is missing (a null pointer, that
the test for null follows), since only variables that are themselves of a union type are mended at the start. -/
theorem C102_nested_counterexample (E : Env) (hE : E.nullRtype ≠ 0) (m : Mem) :
    (Denotes (fun _ _ => True) (.struct [1] (.cons (.nullable (.int .i64)) .nil)) (.struct [1] (.cons (.lit .null) .nil)) (.agg [.null]) ∧
      ∃ m', initial E (.struct [1] (.cons (.nullable (.int .i64)) .nil)) (.struct [1] (.cons (.lit .null) .nil)) 0 m = some m' ∧
        number m' 0 8 = 0 ∧ ¬ Holds E m' (.struct [1] (.cons (.nullable (.int .i64)) .nil)) 0 (.agg [.null])) ∧
    (Denotes (fun _ _ => True) (.arr (.nullable (.int .i64)) 1) .dflt (.agg [.null]) ∧
      ∃ m', initial E (.arr (.nullable (.int .i64)) 1) .dflt 0 m = some m' ∧ number m' 0 8 = 0 ∧
        ¬ Holds E m' (.arr (.nullable (.int .i64)) 1) 0 (.agg [.null])) := by
  have hn : ∀ m', number m' 0 8 = 0 → ¬ Holds E m' (.nullable (.int .i64)) 0 .null := by
    intro m' h hh
    cases hh with
    | nullable h' =>
      have := h' 0 E.nullRtype rfl
      rw [h] at this
      exact hE (BitVec.eq_of_toNat_eq (by rw [← this]; rfl))
  refine ⟨⟨?_, ?_⟩, ?_, ?_⟩
  · refine .struct (by decide) rfl (by decide) rfl (by decide) rfl ?_ ?_
    · intro p i n t x v h1 h2 h3 h4 h5
      rcases p with _ | p <;> simp [Inits.toList] at h1 h2
      subst h1; subst h2
      rcases i with _ | i <;> simp [Tys.toList] at h3 h4 h5
      subst h4; subst h5
      exact .nullable
    · intro i n t v h1 h2 h3 h4
      rcases i with _ | i <;> simp at h1
      subst h1
      simp at h2
  · have h0 : offset (.cons (.nullable (.int .i64)) .nil) 0 = some 0 := by decide +kernel
    have hi : initial E (.struct [1] (.cons (.nullable (.int .i64)) .nil)) (.struct [1] (.cons (.lit .null) .nil)) 0 m =
        some (zero (writeDefault E (.struct [1] (.cons (.nullable (.int .i64)) .nil)) 0 (zero m 0 (size (.struct [1] (.cons (.nullable (.int .i64)) .nil)))))
          0 (size (.nullable (.int .i64)))) := by
      simp [initial, writeExpr, writers, runAll, writeNamed, writeField, Tys.toList, h0, inferLit, writeLiteral, startup, List.findIdx?_cons]
    have hz : ∀ m, number (zero m 0 (size (.nullable (.int .i64)))) 0 8 = 0 := fun m =>
      zero_number (Nat.le_refl _) (by have := size_nullable (.int .i64); omega)
    refine ⟨_, hi, hz _, fun hh => ?_⟩
    cases hh with
    | struct _ h => exact hn _ (hz _) (h 0 _ 0 _ rfl h0 rfl)
  · refine .dflt (.arr rfl ?_)
    intro v hv
    simp at hv
    subst hv
    exact .nullable
  · have hi : initial E (.arr (.nullable (.int .i64)) 1) .dflt 0 m =
        some (zero (zero (zero m 0 (size (.arr (.nullable (.int .i64)) 1))) 0 (size (.arr (.nullable (.int .i64)) 1))) 0 (size (.nullable (.int .i64)))) := by
      simp [initial, writeExpr, writeDefault, startup, List.range_succ]
    have hz : ∀ m, number (zero m 0 (size (.nullable (.int .i64)))) 0 8 = 0 := fun m =>
      zero_number (Nat.le_refl _) (by have := size_nullable (.int .i64); omega)
    refine ⟨_, hi, hz _, fun hh => ?_⟩
    cases hh with
    | arr _ h =>
      have := h 0 .null rfl
      rw [Nat.zero_mul, Nat.add_zero] at this
      exact hn _ (hz _) this

/-- C102 (counterexample): a variable of type any without a value does not start as null. -/
theorem C102_any_counterexample (E : Env) (hE : E.nullRtype ≠ 0) (m : Mem) :
    Denotes (fun _ _ => True) .any .dflt .null ∧ ∃ m', initial E .any .dflt 0 m = some m' ∧ number m' 0 8 = 0 ∧ ¬ Holds E m' .any 0 .null := by
  refine ⟨.dflt .any, _, by rw [initial, writeExpr, writeDefault, Option.map_some, startup]; simp, ?_⟩
  have hz : number (zero (zero m 0 (size .any)) 0 (size .any)) 0 8 = 0 := zero_number (Nat.le_refl _) (by rw [size_any]; omega)
  refine ⟨hz, fun hh => ?_⟩
  cases hh with
  | any h =>
    have := h 0 E.nullRtype rfl
    rw [show 0 + 8 * 0 = 0 by rfl, hz] at this
    exact hE (BitVec.eq_of_toNat_eq (by rw [← this]; rfl))

/-- C102 (counterexample): `18446744073709551615 as u64` starts as 9223372036854775807. -/
theorem C102_cast_counterexample (E : Env) (m : Mem) :
    Denotes (fun _ _ => True) (.int .u64) (.as .u64 false "18446744073709551615".toList) (.int 18446744073709551615) ∧
    ∃ m', initial E (.int .u64) (.as .u64 false "18446744073709551615".toList) 0 m = some m' ∧ number m' 0 8 = 9223372036854775807 ∧
      ¬ Holds E m' (.int .u64) 0 (.int 18446744073709551615) := by
  refine ⟨.cast (dec false _ 18446744073709551615 (by decide +kernel) (by decide +kernel) (by decide) (by decide)) (by constructor <;> decide) trivial, ?_⟩
  have h1 : asU64 (.int .i64 false "18446744073709551615".toList) = some 9223372036854775807 := by decide +kernel
  have h2 : Literal.rangeCheck .u64 (Literal.atoll false "18446744073709551615".toList) = true := rfl
  refine ⟨put (zero m 0 (size (.int .u64))) 0 (le (bytesOf .u64) (u64 9223372036854775807)), ?_, ?_⟩
  · rw [initial, writeExpr]
    simp only [writeAs, h2, if_true]
    rw [writeLiteral, h1]
    simp only [Literal.isUnsigned, if_true, Option.map_some, startup]
  · have hz : ∀ m, number (put m 0 (le (bytesOf .u64) (u64 9223372036854775807))) 0 8 = 9223372036854775807 := by
      intro m
      rw [number_put 8 (by decide)]
      decide
    refine ⟨hz _, fun hh => ?_⟩
    cases hh with
    | int h =>
      rw [HasInt, hz] at h
      omega

end Nature.Global
