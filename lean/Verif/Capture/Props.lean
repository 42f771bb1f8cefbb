import Verif.Capture.Count

/-
C104: a name means its innermost declaration, in closures too.
-/

namespace Nature.Capture

/-- C104, the meaning of names.  In an accepted program whose function literals use at most 128
names each, every use of a name reads the innermost declaration around it: directly when that is
in the same function, and otherwise through the environments of all functions in between.

Missing: the name `lambda`, constants declared inside functions, function literals with more
captured variables, and blocks nested deeper than 255; see the counterexamples. -/
theorem C104_reads_partial (p : List Fun) (hp : ∀ f ∈ p, Plain f)
    (hb : ∀ f ∈ p, Brief 128 f.body) (os : List Out) (s : State)
    (h : analyzeAll p start = .ok (os, s)) :
    os.map (Out.reads []) = programMeanings 0 p :=
  (analyzeAll_spec hp (fun f hf => by cases hf) h (analyzeAll_brief hb h)).1

/-- The same, with the number of captured variables counted exactly: at most 128 for each
function literal. -/
theorem C104_captures_partial (p : List Fun) (hp : ∀ f ∈ p, Plain f) (os : List Out) (s : State)
    (h : analyzeAll p start = .ok (os, s)) (hc : ∀ o ∈ os, o.Captures 128) :
    os.map (Out.reads []) = programMeanings 0 p :=
  (analyzeAll_spec hp (fun f hf => by cases hf) h hc).1

/-- C104, lifetime: a variable captured by a function literal is allocated on the heap, so it
outlives the block that declares it. -/
theorem C104_heap_partial (p : List Fun) (hp : ∀ f ∈ p, Plain f)
    (hb : ∀ f ∈ p, Brief 128 f.body) (os : List Out) (s : State)
    (h : analyzeAll p start = .ok (os, s)) :
    ∀ o ∈ os, ∀ i ∈ o.captured, i ∈ s.heap :=
  (analyzeAll_spec hp (fun f hf => by cases hf) h (analyzeAll_brief hb h)).2.2

/-- C104, acceptance: the only error is a variable declared twice in the same block, where the
parameters of a function belong to the block of its body. -/
theorem C104_accepts_partial (p : List Fun) (hp : ∀ f ∈ p, Plain f) :
    (∃ os s, analyzeAll p start = .ok (os, s)) ↔ ∀ f ∈ p, Distinct f.params f.body :=
  analyzeAll_accepts hp (fun f hf => by cases hf)

/-! ## A program that meets the hypotheses -/

/-- ```
fn f(a) { var b; { var a; use a }; fn(c) { use a; fn() { use b; use c; use a; use g } }; use b }
fn g(b) { use b; use a }
``` -/
def sample : List Fun :=
  [⟨[.user 0],
    .decl (.user 1) (.block (.decl (.user 0) (.use (.user 0) .nil))
      (.fn [.user 2] (.use (.user 0)
        (.fn [] (.use (.user 1) (.use (.user 2) (.use (.user 0) (.use (.user 9) .nil)))) .nil))
      (.use (.user 1) .nil)))⟩,
   ⟨[.user 1], .use (.user 1) (.use (.user 0) .nil)⟩]

theorem sample_plain : ∀ f ∈ sample, Plain f := by
  intro f hf
  simp only [sample, List.mem_cons, List.not_mem_nil, or_false] at hf
  rcases hf with rfl | rfl <;>
    exact ⟨by decide, by simp [NoLambda], by simp [NoConst], by decide, by simp [Shallow, nesting]⟩

theorem sample_brief : ∀ f ∈ sample, Brief 128 f.body := by
  intro f hf
  simp only [sample, List.mem_cons, List.not_mem_nil, or_false] at hf
  rcases hf with rfl | rfl <;> simp [Brief, names]

example : ∃ os s, analyzeAll sample start = .ok (os, s) :=
  (C104_accepts_partial sample sample_plain).2 (by
    intro f hf
    simp only [sample, List.mem_cons, List.not_mem_nil, or_false] at hf
    rcases hf with rfl | rfl <;> decide)

example : programMeanings 0 sample =
    [[.var 0 2, .var 1 0, .var 2 1, .var 1 4, .var 2 0, .global (.user 9), .var 0 1],
     [.var 0 6, .global (.user 0)]] := by decide +kernel

/-- What comes out: `b` and `a` live on the heap, and the inner literal reaches them through the
environment of the outer one. -/
example : (match analyzeAll sample start with
    | .ok (os, s) => (os.map (Out.reads []) == programMeanings 0 sample, s.heap)
    | _ => (false, [])) = (true, [0, 1, 4]) := by decide +kernel

/-! ## Where the analyzer does something else -/

/-- Use the names `from, from+1, …`. -/
def useMany : Nat → Nat → Code
  | 0, _ => .nil
  | n + 1, i => .use (.user i) (useMany n (i + 1))

/-- Declare the names `from, from+1, …`, then go on with `c`. -/
def declMany : Nat → Nat → Code → Code
  | 0, _, c => c
  | n + 1, i, c => .decl (.user i) (declMany n (i + 1) c)

/-- A function literal that uses `n` variables of the function around it. -/
def many (n : Nat) : List Fun := [⟨[], declMany n 0 (.fn [] (useMany n 0) .nil)⟩]

/-- What the uses number `i` read, if the program was accepted. -/
def readAt (p : List Fun) (i : Nat) : Option Meaning :=
  match analyzeAll p start with
  | .ok (o :: _, _) => (o.reads [])[i]?
  | _ => none

/-- What use number `i` should read. -/
def meantAt (p : List Fun) (i : Nat) : Option Meaning :=
  match programMeanings 0 p with
  | m :: _ => m[i]?
  | _ => none

/-- The 129th captured variable is taken for a variable of the closure itself: the index of its
place in the environment does not fit `int8_t` and comes back negative. -/
theorem C104_int8_counterexample :
    readAt (many 129) 127 = meantAt (many 129) 127 ∧
    readAt (many 129) 128 = some (.var 0 128) ∧ meantAt (many 129) 128 = some (.var 1 128) := by
  refine ⟨?_, ?_, ?_⟩ <;> decide +kernel

/-- The 257th captured variable reads the first one. -/
theorem C104_wrap_counterexample :
    readAt (many 257) 256 = some (.var 1 0) ∧ meantAt (many 257) 256 = some (.var 1 256) := by
  refine ⟨?_, ?_⟩ <;> decide +kernel

/-- `var lambda; fn() {}; use lambda`: after a function literal the name `lambda` means the
literal, not the variable. -/
theorem C104_lambda_counterexample :
    let p : List Fun := [⟨[], .decl .lambda (.fn [] .nil (.use .lambda .nil))⟩]
    readAt p 0 = some (.var 0 1) ∧ meantAt p 0 = some (.var 0 0) := by
  decide +kernel

/-- `fn() {}; var lambda`: a program that declares nothing twice is refused. -/
theorem C104_lambda_refused_counterexample :
    let p : List Fun := [⟨[], .fn [] .nil (.decl .lambda .nil)⟩]
    analyzeAll p start = .redeclared ∧ ∀ f ∈ p, Distinct f.params f.body := by
  decide +kernel

/-- `const x; fn() { use x }`: the compiler stops at a failed assertion. -/
theorem C104_const_counterexample :
    let p : List Fun := [⟨[], .const (.user 0) (.fn [] (.use (.user 0) .nil) .nil)⟩]
    analyzeAll p start = .abort ∧ ∀ f ∈ p, Distinct f.params f.body := by
  decide +kernel

/-- `const x; const x`: a constant may be declared twice. -/
theorem C104_const_twice_counterexample :
    let p : List Fun := [⟨[], .const (.user 0) (.const (.user 0) .nil)⟩]
    (∃ r, analyzeAll p start = .ok r) ∧ ¬ ∀ f ∈ p, Distinct f.params f.body := by
  refine ⟨⟨_, rfl⟩, by decide⟩

/-- `fn(a, a)`: two parameters may have the same name. -/
theorem C104_params_counterexample :
    let p : List Fun := [⟨[], .fn [.user 0, .user 0] (.use (.user 0) .nil) .nil⟩]
    (∃ r, analyzeAll p start = .ok r) ∧ ¬ ∀ f ∈ p, DistinctParams f.body := by
  refine ⟨⟨_, rfl⟩, ?_⟩
  simp [DistinctParams]

/-- `n` blocks inside each other, with `c` in the innermost. -/
def nested : Nat → Code → Code
  | 0, c => c
  | n + 1, c => .block (nested n c) .nil

/-- A variable declared in a block 255 deep does not go away at the end of the block: the depth
is a `uint8_t`. -/
theorem C104_depth_counterexample :
    let p : List Fun := [⟨[], nested 254 (.block (.decl (.user 0) .nil) (.use (.user 0) .nil))⟩]
    readAt p 0 = some (.var 0 0) ∧ meantAt p 0 = some (.global (.user 0)) := by
  refine ⟨?_, ?_⟩ <;> decide +kernel

end Nature.Capture
