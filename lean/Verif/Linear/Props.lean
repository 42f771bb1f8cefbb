import Verif.Linear.SimS

/-!
# C77: compiled control flow does what the source says

`Verif.Linear.Spec` is the meaning of the source, `Verif.Linear.Model` the compiler and the machine
for the operations it emits.
-/
namespace Nature.Linear

open Spec

/-- What a caller of the compiled function sees, for each outcome of the source.  The error is on
the coroutine, the value in `rv`.  `F` is the number of rounds loops were allowed in the source: a
source that needs more makes the compiled function run for at least as many operations. -/
def Does (X : Ext) (P : List Instr) (F : Nat) (s : Cfg X) : Outcome X → Prop
  | .returns v w => ∃ m l, Steps X P m s (.done l) ∧ l.w = w ∧ l.err = none ∧ l.rv = v
  | .fails e w => ∃ m l, Steps X P m s (.done l) ∧ l.w = w ∧ l.err = some e
  | .aborts w => ∃ m l, Steps X P m s (.aborted l) ∧ l.w = w
  | .runs => ∃ m c, Steps X P m s c ∧ F ≤ m
  | .stuck => True

/-- The machine has one execution: a function that is done has one result, and does not run on. -/
theorem Steps.det {X : Ext} {P : List Instr} {m m' : Nat} {s c : Cfg X} {l : LSt X}
    (h : Steps X P m s (.done l)) (h' : Steps X P m' s c) : m' ≤ m ∧ (m' = m → c = .done l) := by
  induction m generalizing s m' with
  | zero =>
    cases h
    cases h' with
    | refl => exact ⟨Nat.le_refl _, fun _ => rfl⟩
  | succ m ih =>
    cases h with
    | head h =>
      cases h' with
      | refl => exact ⟨by omega, fun e => by omega⟩
      | head h' =>
        have := ih h h'
        exact ⟨by omega, fun e => this.2 (by omega)⟩

/-! ## The compiler is right about good programs -/

theorem compile_uniq {pl : Nat → Bool} {A : List Nat} {n : Nat} {b : Body} {P : List Instr}
    (hg : goodB pl A false b = true) (hc : compile n b = some P) :
    Uniq P ∧ ∃ k c, linB n Ctx.empty b { lbl := 2, tmp := 0, seen := [] } = some ((), k, c) ∧
      P = k ++ [.bal endL, .label errL, .retn none, .bal endL, .label endL, .fnEnd] := by
  unfold compile at hc
  cases h : linFn n b { lbl := 2, tmp := 0, seen := [] } with
  | none => rw [h] at hc; cases hc
  | some r =>
    obtain ⟨u, k0, c0⟩ := r
    rw [h] at hc
    simp only [Option.some.injEq] at hc
    subst hc
    unfold linFn at h
    obtain ⟨_, k1, c1, k2, h1, h2, rfl⟩ := bind_some.1 h
    obtain ⟨rfl, rfl⟩ := emit_some.1 h2
    refine ⟨?_, k1, c0, h1, rfl⟩
    have S := (stat (pl := pl) (A := A) n).b Ctx.empty false b (by intro s hs; cases hs) hg _ _ _ _ h1
    intro t
    have hcnt : cnt t k1 ≤ inR { lbl := 2, tmp := 0, seen := [] } c0 t + 0 := S.2.2.1 t
    rw [cnt_append]
    simp only [cnt, endL, errL, inR] at hcnt ⊢
    by_cases h0 : (0 : Nat) = t
    · subst h0; simp at hcnt ⊢; omega
    · by_cases h1 : (1 : Nat) = t
      · subst h1; simp at hcnt ⊢; omega
      · simp [h0, h1]
        split at hcnt <;> omega

/-- **C77, partial.** For every function whose source meets the conditions of `goodB`, whatever the
functions it calls do, whatever its arguments and the state of the world: if the compiler accepts
it, running the compiled operations has the outcome, the returned value, the pending error and the
effects on the world, in the same order, that the source has.  In particular every deferred block
registered before a block is left, in whatever way, runs exactly once, newest first.  Missing: the
programs `goodB` excludes, each shown to go wrong below, and the parts of the language not in
`Lang`. -/
theorem C77_compiled_control_flow_partial (X : Ext) (pl : Nat → Bool) (A : List Nat)
    (hpl : ∀ f, pl f = true → Insensitive X f) (b : Body) (hg : goodB pl A false b = true)
    (hids : (idsB b).Nodup) (n : Nat) (P : List Instr) (hc : compile n b = some P)
    (F : Nat) (env : Name → Val) (w : X.W) :
    Does X P F (start P env w) (runFn X F b { vars := fun x => env (.src x), w := w }) := by
  obtain ⟨hU, k, c, h, hP⟩ := compile_uniq hg hc
  have hΓ : CtxOk pl A Ctx.empty 0 false false := by
    refine ⟨rfl, by simp, ?_, ?_, ?_⟩ <;> intro s hs <;> cases hs
  let post : List Instr := [.bal endL, .label errL, .retn none, .bal endL, .label endL, .fnEnd]
  have hP' : (k ++ post) <:+ P := by rw [hP]; exact List.suffix_refl _
  have main := (sim (X := X) (F := F) (pl := pl) (A := A) hU hpl n).b Ctx.empty b
    { lbl := 2, tmp := 0, seen := [] } () k c false false none [] h hΓ hg (.inr (by simp [hd, Ctx.empty]))
    (.inl rfl) ⟨hids, by simp [seenIds]⟩ post hP' { vars := fun x => env (.src x), w := w }
    { env := env, w := w, err := none, rv := none } ⟨fun _ => rfl, rfl, rfl, rfl⟩
  have hs : start P env w = Cfg.run (X := X) (k ++ post) { env := env, w := w, err := none, rv := none } := by
    unfold start; rw [hP]
  rw [← hs] at main
  have gEnd : ∀ l : LSt X, goto P endL l = .run [.label endL, .fnEnd] l := fun l =>
    goto_eq hU (by rw [hP]; exact ⟨k ++ [.bal endL, .label errL, .retn none, .bal endL], by simp⟩) l
  have gErr : ∀ l : LSt X, goto P errL l = .run [.label errL, .retn none, .bal endL, .label endL, .fnEnd] l :=
    fun l => goto_eq hU (by rw [hP]; exact ⟨k ++ [.bal endL], by simp⟩) l
  have fin : ∀ l : LSt X, Steps X P 2 (goto P endL l) (.done l) := by
    intro l
    rw [gEnd]
    exact Steps.head (Steps.head (Steps.refl _))
  unfold runFn
  cases hr : execB X F b false [] { vars := fun x => env (.src x), w := w } with
  | ok a σ1 =>
    rw [hr] at main
    obtain ⟨m, cf, l, e1, hR, _, rfl, _⟩ := main
    refine ⟨m + (1 + 2), l, e1.trans (Steps.trans (Steps.one _ _) (fin l)), hR.w, hR.err, hR.rv⟩
  | exit x σ1 =>
    rw [hr] at main
    cases x with
    | retn v =>
      obtain ⟨m, l, e1, hR, _, _⟩ := main
      exact ⟨m + 2, _, e1.trans (fin _), hR.w, hR.err, rfl⟩
    | thrown e =>
      obtain ⟨m, l, e1, hR, _, _⟩ := main
      exact ⟨m + 2, _, e1.trans (fin _), hR.w, hR.err⟩
    | err e =>
      obtain ⟨m, l, e1, hR, _, _⟩ := main
      have e1 : Steps X P m (start P env w) (goto P errL l) := e1
      rw [gErr] at e1
      exact ⟨m + (3 + 2), _, e1.trans (Steps.trans (Steps.head (Steps.head (Steps.head (Steps.refl _))))
        (fin _)), hR.w, hR.err⟩
    | abort => exact main
    | timeout => exact main
    | brk => trivial
    | cont => trivial
    | ret v => trivial
    | stuck => trivial

/-! ## A deferred block, seen from outside -/

theorem leave_append {X : Ext} (D D' : List (St X → Res X Unit)) (r : Res X Unit) :
    leave (D ++ D') r = leave D' (leave D r) := by
  induction D generalizing r with
  | nil => rfl
  | cons d D ih =>
    cases r with
    | ok a σ => simp only [List.cons_append, leave, ih]
    | exit x σ =>
      simp only [List.cons_append, leave]
      cases hx : x.final with
      | true =>
        simp only [if_true]
        rw [leave_final _ hx]
      | false =>
        simp only [Bool.false_eq_true, if_false]
        cases d σ <;> simp only [ih]

theorem execB_append {X : Ext} {F : Nat} (b : Body) (ct : Bool) (D D' : List (St X → Res X Unit))
    (σ : St X) : execB X F b ct (D ++ D') σ = leave D' (execB X F b ct D σ) := by
  match b with
  | .nil => simp only [execB, leave_append]
  | .cons s rest =>
    by_cases hd : ∃ d, s = .defer d
    · obtain ⟨d, rfl⟩ := hd
      simp only [execB]
      exact execB_append rest ct (_ :: D) D' σ
    · have hnd : ∀ d, s ≠ .defer d := fun d e => hd ⟨d, e⟩
      rw [execB_cons s hnd, execB_cons s hnd]
      cases execS X F s ct σ with
      | ok a σ1 => exact execB_append rest ct D D' σ1
      | exit x σ1 => simp only [leave_append]
termination_by b

/-- The function `b` with `defer k()` in front. -/
def withDefer (k : Nat) (b : Body) : Body :=
  .cons (.defer (.cons (.expr (.call k .plain true .nil)) .nil)) b

/-- The effect of one call of `k` on the world. -/
def after1 (X : Ext) (k : Nat) (w : X.W) : X.W := (X.call k [] none w).2.2

/-- **C78, partial.** Put `defer k()` in front of a function: however the function is left, by its
end, a `return` anywhere inside, a `throw` or a failing call, the compiled function then returns the
same value or error and has the same effects followed by exactly one call of `k`.  Missing: as in
C77; and a failing run time operation outside a `try`, which ends the process without running the
deferred blocks. -/
theorem C78_defer_runs_once_partial (X : Ext) (pl : Nat → Bool) (A : List Nat)
    (hpl : ∀ f, pl f = true → Insensitive X f) (k : Nat) (hk : pl k = true)
    (b : Body) (hg : goodB pl A false b = true)
    (hids : (idsB b).Nodup) (n : Nat) (P : List Instr) (hc : compile n (withDefer k b) = some P)
    (F : Nat) (env : Name → Val) (w : X.W) :
    (∀ v w', runFn X F b { vars := fun x => env (.src x), w := w } = .returns v w' →
      ∃ m l, Steps X P m (start P env w) (.done l) ∧ l.w = after1 X k w' ∧ l.err = none ∧ l.rv = v) ∧
    (∀ e w', runFn X F b { vars := fun x => env (.src x), w := w } = .fails e w' →
      ∃ m l, Steps X P m (start P env w) (.done l) ∧ l.w = after1 X k w' ∧ l.err = some e) := by
  have hg' : goodB pl A false (withDefer k b) = true := by
    simp [withDefer, goodB, goodS, goodE, goodA, safeB, safeS, safeE, safeA, asgB, asgS, asgE, asgA, hk, hg]
  have hids' : (idsB (withDefer k b)).Nodup := by
    simpa [withDefer, idsB, idsS, idsE, idsA] using hids
  have main := C77_compiled_control_flow_partial X pl A hpl _ hg' hids' n P hc F env w
  have hq := (hpl k hk [] · |>.1)
  -- the deferred block calls `k`
  have hd : ∀ σ : St X, execB X F (.cons (.expr (.call k .plain true .nil)) .nil) false [] σ =
      .ok () { σ with w := after1 X k σ.w } := by
    intro σ
    have h0 := hq σ.w
    rw [execB_cons _ (by simp)]
    simp only [execS, evalE, evalA, Res.bind, doCall, after1]
    cases hcall : X.call k [] none σ.w with
    | mk v r =>
      obtain ⟨e, w2⟩ := r
      rw [hcall] at h0
      simp only at h0
      subst h0
      simp only [execB, leave]
  have hx : ∀ σ : St X, execB X F (withDefer k b) false [] σ =
      leave [fun σ => .ok () { σ with w := after1 X k σ.w }] (execB X F b false [] σ) := by
    intro σ
    have h1 : execB X F (withDefer k b) false [] σ =
        execB X F b false ([] ++ [execB X F (.cons (.expr (.call k .plain true .nil)) .nil) false []]) σ := by
      simp only [withDefer, execB, List.nil_append]
    rw [h1, execB_append]
    congr 2
    funext σ1
    exact hd σ1
  refine ⟨fun v w' h => ?_, fun e w' h => ?_⟩
  · unfold runFn at h main
    rw [hx] at main
    cases hr : execB X F b false [] { vars := fun x => env (.src x), w := w } with
    | ok a σ1 =>
      rw [hr] at h main
      cases h
      exact main
    | exit x σ1 =>
      rw [hr] at h main
      cases x <;> first | (cases h; exact main) | cases h
  · unfold runFn at h main
    rw [hx] at main
    cases hr : execB X F b false [] { vars := fun x => env (.src x), w := w } with
    | ok a σ1 =>
      rw [hr] at h
      cases h
    | exit x σ1 =>
      rw [hr] at h main
      cases x <;> first | (cases h; exact main) | cases h

/-! ## Concrete programs

`demo` is a world in which every call is recorded: `99` fails with error `5`, the other functions
return `7` and leave the pending error alone. -/

def demo : Ext where
  W := List (Nat × List Val)
  arith := fun _ v w => .n (v.bits + w.bits)
  strCmp := fun _ _ _ => false
  call := fun f a p w => (.n 7, if f = 99 then some (.o 5) else p, w ++ [(f, a)])

instance : DecidableEq demo.W := inferInstanceAs (DecidableEq (List (Nat × List Val)))

theorem demo_insensitive (f : Nat) (h : decide (f ≠ 99) = true) : Insensitive demo f := by
  have h : f ≠ 99 := by simpa using h
  intro args w
  simp [demo, h]

/-- Run the machine. -/
def runN {X : Ext} (P : List Instr) : Nat → Cfg X → Cfg X
  | 0, c => c
  | n + 1, .run k l => runN P n (step X P k l)
  | _ + 1, c => c

theorem runN_steps {X : Ext} (P : List Instr) (n : Nat) (c : Cfg X) :
    ∃ m, Steps X P m c (runN P n c) := by
  induction n generalizing c with
  | zero => exact ⟨0, Steps.refl _⟩
  | succ n ih =>
    cases c with
    | run k l =>
      obtain ⟨m, h⟩ := ih (step X P k l)
      exact ⟨m + 1, Steps.head h⟩
    | done l => exact ⟨0, Steps.refl _⟩
    | aborted l => exact ⟨0, Steps.refl _⟩
    | crash => exact ⟨0, Steps.refl _⟩

/-- What the end of a run shows. -/
inductive Seen where
  | done (w : List (Nat × List Val)) (err rv : Option Val)
  | aborted (w : List (Nat × List Val))
  | crash
  | running
  deriving DecidableEq

def see1 : Cfg demo → Seen
  | .done l => .done l.w l.err l.rv
  | .aborted l => .aborted l.w
  | .crash => .crash
  | .run _ _ => .running

/-- The locals: variable 0 is `v`. -/
def env0 (v : Val) : Name → Val := fun x => if x = .src 0 then v else .n 0

/-- Compile `b` and run it. -/
def tryOut (b : Body) (v : Val) : Option Seen :=
  (compile 60 b).map fun P => see1 (runN P 1000 (start (X := demo) P (env0 v) ([] : List (Nat × List Val))))

/-- The machine, started on the compiled `b`, ends as `s` shows. -/
def Ends (b : Body) (v : Val) (s : Seen) : Prop :=
  ∃ P, compile 60 b = some P ∧
    ∃ m c, Steps demo P m (start (X := demo) P (env0 v) ([] : List (Nat × List Val))) c ∧ see1 c = s

theorem tryOut_ends {b : Body} {v : Val} {s : Seen} (h : tryOut b v = some s) : Ends b v s := by
  unfold tryOut at h
  cases hc : compile 60 b with
  | none => rw [hc] at h; cases h
  | some P =>
    rw [hc] at h
    simp only [Option.map_some, Option.some.injEq] at h
    obtain ⟨m, hm⟩ := runN_steps (X := demo) P 1000 (start P (env0 v) [])
    exact ⟨P, hc, m, _, hm, h⟩

/-- What the source says, as something a run shows. -/
def Spec.Outcome.seen : Outcome demo → Option Seen
  | .returns v w => some (.done w none v)
  | .fails e w => some (.done w (some e) none)
  | .aborts w => some (.aborted w)
  | .runs => none
  | .stuck => none

def source (b : Body) (v : Val) : Option Seen :=
  (runFn demo 50 b { vars := fun x => env0 v (.src x), w := [] }).seen

section
local instance (n : Nat) : OfNat Val n := ⟨.n (BitVec.ofNat 64 n)⟩

def B : List Stmt → Body
  | [] => .nil
  | s :: r => .cons s (B r)
def As : List Expr → Args
  | [] => .nil
  | s :: r => .cons s (As r)
abbrev vr (n : Nat) : Expr := .var (.src n)
abbrev i (n : Nat) : Expr := .lit (.n n)
/-- Call function 1. -/
def pr (e : Expr) : Stmt := .expr (.call 1 .plain true (As [e]))
/-- Call the failing function. -/
def bad : Expr := .call 99 .errable false .nil

/-- Loops, `break`, `continue`, `return`, `match`, `catch`, `try` and deferred blocks together. -/
def sample : Body := B [
  .set 1 (i 0),
  .defer (B [pr (i 1000)]),
  .forC (.cmp .s .lt (vr 1) (i 6)) (B [
    .defer (B [pr (i 100)]),
    .set 1 (.arith 0 (vr 1) (i 1)),
    .ite (.cmp .s .ee (vr 1) (i 2)) (B [.cont]) .nil,
    .try (B [.defer (B [pr (i 50)]), .ite (.cmp .s .ee (vr 1) (i 3)) (B [.expr bad]) .nil]) 2 (B [pr (vr 2)]),
    .ite (.cmp .s .ee (vr 1) (i 5)) (B [.brk]) .nil,
    pr (vr 1)]),
  .set 3 (.ctch false none bad 4 (B [.ret (i 9)])),
  .retE (.mtchS 0 false .s (vr 3) (.cons (As [i 8]) (B [.ret (i 80)])
    (.cons (As [i 9]) (B [.defer (B [pr (i 70)]), .ret (i 90)]) (.last true .nil (B [.ret (i 0)])))))]

/-- The hypotheses of C77 hold for it. -/
example : goodB (fun f => decide (f ≠ 99)) [] false sample = true ∧ (idsB sample).Nodup ∧
    (compile 60 sample).isSome = true := by decide +kernel

/-- … and this is what it does. -/
example : source sample 0 = some (.done [(1, [.n 50]), (1, [.n 1]), (1, [.n 100]), (1, [.n 100]),
    (99, []), (1, [.n 50]), (1, [.o 5]), (1, [.n 3]), (1, [.n 100]), (1, [.n 50]), (1, [.n 4]),
    (1, [.n 100]), (1, [.n 50]), (1, [.n 100]), (99, []), (1, [.n 70]), (1, [.n 1000])] none (some 90)) ∧
    tryOut sample 0 = source sample 0 := by decide +kernel

/-- C78 applies to it as well. -/
example : (compile 60 (withDefer 1 sample)).isSome = true := by decide +kernel

/-! ## Programs excluded by `goodB` that go wrong -/

/-- `defer { x = 2 }; return x` returns 2: a returned variable is read after the deferred blocks. -/
theorem C77_return_variable_counterexample :
    let b := B [.defer (B [.set 0 (i 2)]), .retE (vr 0)]
    source b 5 = some (.done [] none (some 5)) ∧ Ends b 5 (.done [] none (some 2)) :=
  ⟨by decide +kernel, tryOut_ends (by decide +kernel)⟩

/-- `x + match { _ -> { x = 10; ret 1 } }`: the left operand is read after the right one ran. -/
theorem C77_operand_order_counterexample :
    let b := B [.retE (.arith 0 (vr 0) (.mtch false (.last true .nil (B [.set 0 (i 10), .ret (i 1)]))))]
    source b 5 = some (.done [] none (some 6)) ∧ Ends b 5 (.done [] none (some 11)) :=
  ⟨by decide +kernel, tryOut_ends (by decide +kernel)⟩

/-- `if x < 1.0 { pr(1) }` with `x` a NaN runs the body: the jump around it is `x >= 1.0`. -/
theorem C77_if_nan_counterexample :
    let b := B [.ite (.cmp .f .lt (vr 0) (.lit (.f (some 1)))) (B [pr (i 1)]) .nil]
    source b (.f none) = some (.done [] none none) ∧ Ends b (.f none) (.done [(1, [.n 1])] none none) :=
  ⟨by decide +kernel, tryOut_ends (by decide +kernel)⟩

/-- `defer pr(1); defer { bad() }`: at the end of the block the second one fails, and the first is
skipped. -/
theorem C78_failing_defer_skips_others_counterexample :
    let b := B [.defer (B [pr (i 1)]), .defer (B [.expr bad])]
    source b 0 = some (.done [(99, []), (1, [.n 1])] (some (.o 5)) none) ∧
      Ends b 0 (.done [(99, [])] (some (.o 5)) none) :=
  ⟨by decide +kernel, tryOut_ends (by decide +kernel)⟩

/-- A deferred block with a `try` of its own, run because an error passes: the call inside succeeds,
but the pending error makes it look failed, its handler takes that error away, and the handler the
error was for finds none: a failed assertion ends the process. -/
theorem C77_error_pending_in_defer_counterexample :
    let b := B [.try (B [.defer (B [.try (B [.expr (.call 2 .errable true .nil)]) 5 (B [pr (i 42)])]),
      .expr bad]) 6 (B [pr (i 43)])]
    source b 0 = some (.done [(99, []), (2, []), (1, [.n 43])] none none) ∧ Ends b 0 .crash :=
  ⟨by decide +kernel, tryOut_ends (by decide +kernel)⟩

/-- A `match` with a subject in a deferred block that is emitted twice: the second copy compares the
conditions with both subjects and takes the wrong case. -/
theorem C77_match_in_defer_counterexample :
    let b := B [.defer (B [.expr (.mtchS 0 true .s (vr 0) (.cons (As [i 5]) (B [pr (i 55)])
        (.last true .nil (B [pr (i 66)]))))]),
      .ite (.cmp .s .gt (vr 0) (i 100)) (B [.retV]) .nil]
    source b 5 = some (.done [(1, [.n 55])] none none) ∧
      Ends b 5 (.done [(1, [.n 66])] none none) :=
  ⟨by decide +kernel, tryOut_ends (by decide +kernel)⟩

/-- The default value of a `catch` is lost when a `ret` inside a `try` fails half way. -/
theorem C77_catch_default_counterexample :
    let b := B [.set 1 (.ctch false (some (.b false)) bad 3
        (B [.try (B [.ret (.and (.lit (.b true)) bad)]) 4 .nil])), .retE (vr 1)]
    source b 0 = some (.done [(99, []), (99, [])] none (some (.b false))) ∧
      Ends b 0 (.done [(99, []), (99, [])] none (some (.b true))) :=
  ⟨by decide +kernel, tryOut_ends (by decide +kernel)⟩

end

/-- The body of a deferred block that can fail. -/
def failing : Body := .cons (.expr (.call 99 .errable true .nil)) .nil

theorem unw_failing (n : Nat) : ∀ m, m ≤ n → ∀ (Γ : Ctx) (D : List Body) c, Γ.catches = [] →
    pending (·.kd) 0 Γ.scopes = failing :: D → ∀ D', unw m Γ (failing :: D') c = none := by
  induction n with
  | zero =>
    intro m hm Γ D c _ _ D'
    obtain rfl : m = 0 := by omega
    rfl
  | succ n ih =>
    intro m hm Γ D c hk hp D'
    match m with
    | 0 => rfl
    | 1 => rfl
    | 2 => rfl
    | 3 => rfl
    | 4 => rfl
    | 5 => rfl
    | m + 6 =>
      have e : unw (m + 6) Γ (failing :: D') = (do linB (m + 5) Γ failing; unw (m + 5) Γ D') := by
        simp only [unw]
      rw [e]
      cases h : ((do linB (m + 5) Γ failing; unw (m + 5) Γ D') : M Unit) c with
      | none => rfl
      | some r =>
        exfalso
        obtain ⟨u, k, c'⟩ := r
        obtain ⟨_, k1, c1, k2, h1, h2, _⟩ := bind_some.1 h
        simp only [linB, failing, linL] at h1
        obtain ⟨_, k3, c3, k4, h3, h4, _⟩ := bind_some.1 h1
        simp only [linS] at h3
        obtain ⟨_, k5, c5, k6, h5, h6, _⟩ := bind_some.1 h3
        simp only [linE, if_true] at h5
        obtain ⟨_, k7, c7, k8, h7, h8, _⟩ := bind_some.1 h5
        obtain ⟨_, h9, _⟩ := bind_emit.1 h8
        obtain ⟨_, k9, c9, k10, h10, h11, _⟩ := bind_some.1 h9
        simp only [linFail] at h10
        have h12 := bind_freshL.1 (bind_freshL.1 (bind_freshT.1 h10))
        obtain ⟨_, h13, _⟩ := bind_emit.1 h12
        obtain ⟨_, k11, c11, k12, h14, _, _⟩ := bind_some.1 h13
        have hp' : pending (·.kd) 0 (Scope.new Γ :: Γ.scopes) = failing :: D := by
          rw [pending_cons (by simp [Scope.new, hk])]
          exact hp
        rw [hk] at h14
        simp only [List.length_nil] at h14
        rw [hp', ih m (by omega) { Γ with catches := [], scopes := Scope.new Γ :: Γ.scopes } D _ rfl hp' D] at h14
        cases h14

/-- `defer { f() }; return`, where `f` can fail: the compiler does not terminate.  The code for a
failure inside the deferred block contains the deferred block again. -/
theorem C77_compiler_diverges_counterexample :
    ∀ n, compile n (.cons (.defer failing) (.cons .retV .nil)) = none := by
  intro n
  unfold compile
  cases h : linFn n (.cons (.defer failing) (.cons .retV .nil)) { lbl := 2, tmp := 0, seen := [] } with
  | none => rfl
  | some r =>
    exfalso
    obtain ⟨u, k, c⟩ := r
    unfold linFn at h
    obtain ⟨_, k1, c1, k2, h1, _, _⟩ := bind_some.1 h
    match n with
    | 0 => simp [linB, fail] at h1
    | 1 => simp [linB, linL, fail] at h1
    | 2 => simp [linB, linL, register, fail] at h1
    | 3 =>
      simp only [linB, linL, register] at h1
      obtain ⟨_, _, _, _, h3, _, _⟩ := bind_some.1 h1
      simp [linS, fail] at h3
    | n + 4 =>
      simp only [linB, linL, register] at h1
      obtain ⟨_, k3, c3, k4, h3, _, _⟩ := bind_some.1 h1
      simp only [linS] at h3
      obtain ⟨_, k5, c5, k6, h5, _, _⟩ := bind_some.1 h3
      have hd : pendingAll [{ Scope.new Ctx.empty with defers := [failing] }] = [failing] := rfl
      have h5 : unw n { Ctx.empty with scopes := [{ Scope.new Ctx.empty with defers := [failing] }] } [failing]
          { lbl := 2, tmp := 0, seen := [] } = some (_, k5, c5) := h5
      rw [unw_failing n n (Nat.le_refl _) _ [] _ rfl rfl []] at h5
      cases h5

end Nature.Linear
