/-
C73 and C74: number literals and constant expressions have the value that is written.
-/
import Verif.Literal.Fold
namespace Nature.Literal
open Nature.Scan (IsDecimal valueOf Lexeme Tok Ty dec)
open Nature.Parse (Expr Un Bin)

/-- C73: a number of the type, written without leading zeros, is accepted and has its value. -/
theorem C73_value {k : Kind} {neg : Bool} {w : List Char} {v : Int} (h : Written neg w v) (hk : k.Has v) : compile k neg w = .ok v :=
  compile_written h hk

/-- C73 (partial): a number that is not of the type is reported.  Partial: types of less than 64 bits. -/
theorem C73_reported_partial {k : Kind} {neg : Bool} {w : List Char} {v : Int} (h : Written neg w v) (hk : ¬ k.Has v) (h1 : k ≠ .u64)
    (h2 : k ≠ .i64) : compile k neg w = .err := by
  have hr : rangeCheck k (atoll neg w) = false := by
    cases hr : rangeCheck k (atoll neg w) with
    | false => rfl
    | true =>
      exfalso
      rw [rangeCheck_iff h1 h2] at hr
      by_cases hf : Fits v
      · rw [(written_atoll h hf).1] at hr; exact hk hr
      · obtain ⟨n, hn, rfl⟩ := h
        rw [atoll, (digits_decimal hn).1] at hr
        have hb := has_fits h1 hr
        obtain ⟨a, b⟩ := hr
        unfold Fits at hf
        unfold clampS at a b
        cases neg <;> simp only [Bool.false_eq_true, if_false, if_true] at hf a b <;>
          cases k <;> simp only [Kind.min, Kind.max] at a b <;> first | omega | exact absurd rfl h1 | exact absurd rfl h2
  unfold compile
  rw [hr]
  rfl

/-- C73 from the source text: a number with a prefix has its value, whatever its leading zeros; and so has a decimal number without. -/
theorem C73_source {k : Kind} {prev : Option Ty} {t : Tok} :
    (∀ b ds, Lexeme.IsTok prev (.based b ds) t → k.Has (valueOf b.size ds) → compile k false t.text = .ok (valueOf b.size ds)) ∧
    (∀ ds, Lexeme.IsTok prev (.whole ds) t → Lexeme.Ok (.whole ds) → (ds = ['0'] ∨ ds.head? ≠ some '0') → k.Has (valueOf 10 ds) →
      compile k false t.text = .ok (valueOf 10 ds)) := by
  refine ⟨?_, ?_⟩
  · intro b ds h hk
    exact C73_value ⟨_, h.2, rfl⟩ hk
  · intro ds h ho hz hk
    rw [h]
    refine C73_value ⟨_, ⟨ho.2, rfl, ?_⟩, rfl⟩ hk
    rcases hz with rfl | hz
    · exact .inl rfl
    · right
      cases ds with
      | nil => exact absurd rfl ho.1
      | cons c r => exact ⟨c, r, rfl, fun e => hz (by rw [e]; rfl)⟩

example : compile .u8 false ['2', '5', '5'] = .ok 255 := by decide
example : compile .i8 true ['1', '2', '8'] = .ok (-128) ∧ compile .i8 false ['1', '2', '8'] = .err := by decide
example : Written true ['1', '2', '8'] (-128) := ⟨128, ⟨by
  intro c hc
  simp only [List.mem_cons, List.not_mem_nil, or_false] at hc
  rcases hc with rfl | rfl | rfl <;> constructor <;> decide, by decide, .inr ⟨'1', _, rfl, by decide⟩⟩, rfl⟩

/-- C73 (counterexample): a number that is too large for int or uint, and any negative number for uint, is accepted as another one. -/
theorem C73_large_counterexample {neg : Bool} {w : List Char} {v : Int} (h : Written neg w v) :
    (2 ^ 63 ≤ v → compile .i64 neg w = .ok (2 ^ 63 - 1)) ∧ (v < -2 ^ 63 → compile .i64 neg w = .ok (-2 ^ 63)) ∧
    (2 ^ 64 ≤ v → compile .u64 neg w = .ok (2 ^ 64 - 1)) ∧ (-2 ^ 64 < v → v < 0 → compile .u64 neg w = .ok (2 ^ 64 + v)) := by
  obtain ⟨n, hn, rfl⟩ := h
  obtain ⟨_, h2⟩ := digits_decimal hn
  unfold compile
  rw [if_pos (show rangeCheck .i64 (atoll neg w) = true from rfl), if_pos (show rangeCheck .u64 (atoll neg w) = true from rfl), h2]
  simp only [isUnsigned, Bool.false_eq_true, if_false, if_true, Res.ok.injEq]
  unfold clampS clampU
  cases neg <;> simp only [Bool.false_eq_true, if_false, if_true]
  · refine ⟨by omega, by omega, fun h => ?_, by omega⟩
    rw [if_neg (by omega)]
  · refine ⟨by omega, by omega, by omega, fun h h' => ?_⟩
    rw [if_pos (by omega), Int.emod_eq_of_lt (by omega) (by omega)]
    omega

example : compile .i64 false "99999999999999999999".toList = .ok 9223372036854775807 := by decide +kernel
example : compile .u64 true ['1'] = .ok 18446744073709551615 := by decide +kernel

/-- C73 (counterexample): with a leading zero the number is checked as decimal and compiled as octal: `010` is 8 as an int and 10 as
the value of an enumerator, `0377` is out of range for u8 although it is 255, and `08` is an error. -/
theorem C73_zero_counterexample : compile .i64 false ['0', '1', '0'] = .ok 8 ∧ enumValue .i64 false ['0', '1', '0'] = .ok 10 ∧
    compile .u8 false ['0', '3', '7', '7'] = .err ∧ compile .i64 false ['0', '8'] = .err := by decide

/-! ### Folding -/

/-- C74: a constant expression whose parts fit into 64 bits is folded to the literal of its mathematical value, and so has this value in
every type that has it. -/
theorem C74_value {F : Floats} {e : Expr} {v : Int} (h : Means e v) :
    ∃ neg w, fold F e = .ok (.int neg w) ∧ Written neg w v ∧ ∀ k : Kind, k.Has v → compile k neg w = .ok v := by
  obtain ⟨e', h1, neg, w, rfl, h2, _⟩ := means_fold (F := F) h
  exact ⟨neg, w, h1, h2, fun k hk => C73_value h2 hk⟩

/-- C74 (partial): folding does not change what an expression of ints, bools and strings does, for all values of its variables: it has
the same value, or fails in the same way.  Partial: if the compiler survives folding; nothing is said of floats and of the cases that
`eval` leaves out. -/
theorem C74_run_partial {F : Floats} {e e' : Expr} (h : fold F e = .ok e') (ρ : List Char → Val) (hk : eval ρ e ≠ .unknown) :
    eval ρ e' = eval ρ e := by
  rcases fold_eval F ρ e e' h with h | h
  · exact absurd h hk
  · exact h

/-- C74: the compiler survives folding an expression without literal operations that overflow; for one operation that means: -/
theorem C74_survives {F : Floats} {o : Bin} {a b : Expr} {x y : Int} (ha : Means a x) (hb : Means b y)
    (h : fold F (.bin o a b) = .undef ∨ fold F (.bin o a b) = .trap) :
    (o = .add ∧ ¬ Fits (x + y)) ∨ (o = .sub ∧ ¬ Fits (x - y)) ∨ (o = .mul ∧ ¬ Fits (x * y)) ∨
    ((o = .div ∨ o = .rem) ∧ x = -2 ^ 63 ∧ y = -1) ∨ ((o = .lshift ∨ o = .rshift) ∧ ¬ (0 ≤ y ∧ y < 64)) := by
  obtain ⟨a', h1, n, u, rfl, h2, h3⟩ := means_fold (F := F) ha
  obtain ⟨b', h4, m, w, rfl, h5, h6⟩ := means_fold (F := F) hb
  rw [fold, h1, h4] at h
  simp only [Out.bind, foldBin] at h
  rw [(written_atoll h2 h3).2, (written_atoll h5 h6).2] at h
  cases o with
  | add =>
    rw [intOp] at h
    exact .inl ⟨rfl, fun q => by rw [fit_ok q] at h; rcases h with h | h <;> cases h⟩
  | sub =>
    rw [intOp] at h
    exact .inr (.inl ⟨rfl, fun q => by rw [fit_ok q] at h; rcases h with h | h <;> cases h⟩)
  | mul =>
    rw [intOp] at h
    exact .inr (.inr (.inl ⟨rfl, fun q => by rw [fit_ok q] at h; rcases h with h | h <;> cases h⟩))
  | div =>
    refine .inr (.inr (.inr (.inl ⟨.inl rfl, ?_⟩)))
    rw [intOp] at h
    by_cases hy : y = 0
    · rw [if_pos hy] at h; rcases h with h | h <;> cases h
    · rw [if_neg hy] at h
      by_cases hc : x = -2 ^ 63 ∧ y = -1
      · exact hc
      · rw [if_neg hc] at h; rcases h with h | h <;> cases h
  | rem =>
    refine .inr (.inr (.inr (.inl ⟨.inr rfl, ?_⟩)))
    rw [intOp] at h
    by_cases hy : y = 0
    · rw [if_pos hy] at h; rcases h with h | h <;> cases h
    · rw [if_neg hy] at h
      by_cases hc : x = -2 ^ 63 ∧ y = -1
      · exact hc
      · rw [if_neg hc] at h; rcases h with h | h <;> cases h
  | lshift =>
    refine .inr (.inr (.inr (.inr ⟨.inl rfl, fun hs => ?_⟩)))
    rw [intOp, if_pos hs] at h; rcases h with h | h <;> cases h
  | rshift =>
    refine .inr (.inr (.inr (.inr ⟨.inr rfl, fun hs => ?_⟩)))
    rw [intOp, if_pos hs] at h; rcases h with h | h <;> cases h
  | _ => rcases h with h | h <;> cases h

/-- `(1 + 2) * 3 - (7 / 2)` is 6. -/
example : Means (.bin .sub (.bin .mul (.bin .add (.int false ['1']) (.int false ['2'])) (.int false ['3']))
    (.bin .div (.int false ['7']) (.int false ['2']))) 6 := by
  have lit1 : ∀ c n, Nature.Scan.DigitChar c → valueOf 10 [c] = n → c ≠ '0' → n < 10 → Means (.int false [c]) n := fun c n h1 h2 h3 h4 =>
    .int ⟨n, ⟨by simpa using h1, h2, .inr ⟨c, [], rfl, h3⟩⟩, rfl⟩ ⟨by omega, by omega⟩
  have h1 := lit1 '1' 1 ⟨by decide, by decide⟩ (by decide) (by decide) (by decide)
  have h2 := lit1 '2' 2 ⟨by decide, by decide⟩ (by decide) (by decide) (by decide)
  have h3 := lit1 '3' 3 ⟨by decide, by decide⟩ (by decide) (by decide) (by decide)
  have h7 := lit1 '7' 7 ⟨by decide, by decide⟩ (by decide) (by decide) (by decide)
  exact .sub (x := 9) (y := 3) (.mul (x := 3) (y := 3) (.add (x := 1) (y := 2) h1 h2 (by constructor <;> decide)) h3 (by constructor <;> decide))
    (.div (x := 7) (y := 2) h7 h2 (by decide) (by constructor <;> decide)) (by constructor <;> decide)

def noFloats : Floats := ⟨fun _ _ _ => none, fun _ => []⟩

/-- `x * (2 + 3)` becomes `x * 5`. -/
example : fold noFloats (.bin .mul (.ident ['x']) (.bin .add (.int false ['2']) (.int false ['3']))) =
    .ok (.bin .mul (.ident ['x']) (.int false ['5'])) := by rfl

/-- `1 / 0` is left to fail at run time. -/
example : fold noFloats (.bin .div (.int false ['1']) (.int false ['0'])) = .ok (.bin .div (.int false ['1']) (.int false ['0'])) ∧
    ∀ ρ, eval ρ (.bin .div (.int false ['1']) (.int false ['0'])) = .fails := ⟨rfl, fun _ => rfl⟩

/-- C74 (counterexample): the smallest number divided by -1 kills the compiler: `(-9223372036854775807 - 1) / -1`. -/
theorem C74_trap_counterexample : fold noFloats (.bin .div (.bin .sub (.int true "9223372036854775807".toList) (.int false ['1']))
    (.int true ['1'])) = .trap := by rfl

/-- C74 (counterexample): `18446744073709551615 - 1`, as a uint, is 9223372036854775806; and `08 + 1` is 1, although `08` alone is an
error. -/
theorem C74_value_counterexample :
    (∃ n w, fold noFloats (.bin .sub (.int false "18446744073709551615".toList) (.int false ['1'])) = .ok (.int n w) ∧
      compile .u64 n w = .ok 9223372036854775806) ∧
    fold noFloats (.bin .add (.int false ['0', '8']) (.int false ['1'])) = .ok (.int false ['1']) :=
  ⟨⟨false, "9223372036854775806".toList, by rfl, by decide +kernel⟩, by rfl⟩

/-- C74: joining string literals gives the joined text, if there is no zero character in them. -/
theorem C74_strings_partial {F : Floats} (u v : List Char) (hu : '\x00' ∉ u) (hv : '\x00' ∉ v) :
    fold F (.bin .add (.str u) (.str v)) = .ok (.str (u ++ v)) := by
  rw [fold, fold, fold]
  simp only [Out.bind, foldBin]
  rw [cstr_self u hu, cstr_self v hv]
  rfl

/-- C74 (counterexample): what follows a zero character in a string literal is lost when literals are joined. -/
theorem C74_strings_counterexample {F : Floats} : fold F (.bin .add (.str ['a', '\x00', 'b']) (.str ['c'])) = .ok (.str ['a', 'c']) := by
  rfl

end Nature.Literal
