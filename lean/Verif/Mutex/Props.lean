import Verif.Mutex.Safe
/-!
# C24 and C45: the coroutine mutex

For any number of coroutines and every interleaving of the atomic steps.
-/
namespace Nature.Mutex

theorem Reach.run {n : Nat} {s s' : St} (h : Reach n s) {l : List (Nat × Choice)}
    (hr : run s l = .next s') : Reach n s' := by
  induction l generalizing s with
  | nil => cases hr; exact h
  | cons x l ih =>
    obtain ⟨i, c⟩ := x
    simp only [Mutex.run] at hr
    cases hs : Mutex.step s i c with
    | next s1 => rw [hs] at hr; exact ih (.step h hs) hr
    | blocked => rw [hs] at hr; cases hr
    | fail f => rw [hs] at hr; cases hr

/-- **C24, mutual exclusion.**  In every reachable state the log of acquisitions
(by `lock` or a successful `try_lock`) and `unlock` calls alternates, each
`unlock` by the coroutine that acquired. -/
theorem C24_mutual_exclusion_partial {n : Nat} {s : St} (h : Reach n s) : Exclusive s.log := by
  obtain ⟨o, ho, -⟩ := h.inv.log
  exact ⟨o, ho⟩

/-- **C24, holders.**  No two coroutines are past their acquisition and before
their `unlock` at the same time, and the one that is owns the mutex by the log. -/
theorem C24_single_holder_partial {n : Nat} {s : St} (h : Reach n s) {i j : Nat} {a b : Th}
    (hi : s.ths[i]? = some a) (hj : s.ths[j]? = some b) (ha : a.pc = .crit) (hb : b.pc = .crit) :
    i = j ∧ Owns s i := by
  have hI := h.inv
  have one : ∀ {k : Nat} {c : Th}, s.ths[k]? = some c → c.pc = .crit → i = k := by
    intro k c hk hc
    rcases Nat.decEq i k with h1 | h1
    · exfalso
      have h2 := tot_ge2 hold_nn h1 hi hk
      simp only [hold, ha, hc] at h2
      have h3 := hI.num.core
      unfold Core at h3
      omega
    · exact h1
  refine ⟨one hj hb, ?_⟩
  obtain ⟨o, ho, hm⟩ := hI.log
  cases o with
  | none =>
    exfalso
    have := tot_ge hold_nn hi
    simp only [hold, ha] at this
    simp only at hm
    omega
  | some k =>
    obtain ⟨c, hk, hc⟩ := hm
    have := one hk hc
    subst this
    exact ho

/-- **C24, assertions.**  Every internal consistency assertion of the mutex holds
whenever it is evaluated, and every wake-up targets a parked coroutine, with one
exception: `assert(m->waiters.count == 0)` on line 270. -/
theorem C24_assertions_partial {n : Nat} {s : St} (h : Reach n s) {i : Nat} {c : Choice} {f : Fault}
    (hf : Mutex.step s i c = .fail f) : f = .unlockedCount :=
  h.inv.noFault hf

/-- **C24, `try_lock`.**  Run on its own from any state (held, contended or
starving), `try_lock` returns within three of its own steps, reporting exactly
one outcome; it reports failure only when somebody holds the mutex or it is in
starvation mode. -/
theorem C24_try_lock_partial {s : St} {i : Nat} {th : Th} {c : Choice} (hi : s.ths[i]? = some th)
    (hpc : th.pc = .idle) (hc : c.try_ = true) :
    ∃ s', Mutex.run s [(i, c), (i, c), (i, c)] = .next s' ∧
      (s'.log = s.log ++ [if isL s.state || isS s.state then .tryFailed i else .acquired i]) ∧
      s'.ths[i]? = some { th with pc := if isL s.state || isS s.state then .idle else .crit } := by
  have e1 : Mutex.step s i c = .next (s.go i th .tryLoad) := by
    simp [Mutex.step, hi, stepTh, hpc, hc]
  have g1 : (s.go i th .tryLoad).ths[i]? = some { th with pc := .tryLoad } := get_set_eq hi
  have e2 : Mutex.step (s.go i th .tryLoad) i c =
      .next ((s.go i th .tryLoad).go i { th with pc := .tryLoad } (.tryCas s.state)) := by
    simp only [Mutex.step, g1, stepTh]; rfl
  have g2 : ((s.go i th .tryLoad).go i { th with pc := .tryLoad } (.tryCas s.state)).ths[i]? =
      some { th with pc := .tryCas s.state } := get_set_eq g1
  simp only [Mutex.run, e1, e2]
  simp only [Mutex.step, g2, stepTh]
  rcases Bool.eq_false_or_eq_true (isL s.state || isS s.state) with h | h
  · simp only [h, if_true]
    exact ⟨_, rfl, rfl, get_set_eq g2⟩
  · simp only [h, Bool.false_eq_true, if_false]
    have : ((s.go i th .tryLoad).go i { th with pc := .tryLoad } (.tryCas s.state)).state = s.state := rfl
    simp only [this, if_true]
    exact ⟨_, rfl, rfl, get_set_eq g2⟩

/-- The default choice: call `lock`, do not spin, do not become starving. -/
def c0 : Choice := ⟨false, false, false⟩
/-- The wait took longer than the threshold. -/
def cs : Choice := ⟨false, false, true⟩
/-- Spin. -/
def cp : Choice := ⟨false, true, false⟩

def rep (i : Nat) (k : Nat) (c : Choice := c0) : List (Nat × Choice) := List.replicate k (i, c)

/-- Coroutine 0 takes the mutex; 1 and 2 queue up behind it; 0 unlocks, grants
one wake-up and has just read `waiter_count == 0`; 1 takes the wake-up; 2 pushes
itself on the waiter list. -/
def raceTrace : List (Nat × Choice) :=
  rep 0 2 ++ rep 1 4 ++ rep 2 4 ++ rep 0 5 ++ rep 1 1 ++ rep 2 5

/-- **C24 is false as stated.**  The unlocked assertion of
`rt_mutex_waiter_release` fails in an execution of three coroutines that each
use the mutex correctly: `unlock` of a held mutex aborts the process. -/
theorem C24_unlock_assertion_counterexample :
    ∃ s, Reach 3 s ∧ Exclusive s.log ∧ Mutex.step s 0 c0 = .fail .unlockedCount := by
  have h : ∃ s, Mutex.run (init 3) raceTrace = .next s ∧
      Mutex.step s 0 c0 = .fail .unlockedCount := by
    refine ⟨_, rfl, ?_⟩
    decide +kernel
  obtain ⟨s, hs, hf⟩ := h
  have hr := Reach.init.run hs
  exact ⟨s, hr, C24_mutual_exclusion_partial hr, hf⟩

/-- **C45, no lost wake-up.**  If nobody owns the mutex and every coroutine that
is inside a mutex call is blocked, then no coroutine is inside a mutex call: a
free mutex never leaves a waiter asleep. -/
theorem C45_no_lost_wakeup {n : Nat} {s : St} (h : Reach n s)
    (hfree : replay none s.log = some none)
    (hblocked : ∀ i, Outside s i ∨ Stuck s i) : ∀ i, Outside s i :=
  h.inv.noStuck hfree hblocked

/-! ### The hypotheses are met by real contention -/

/-- A starvation hand-over: 1 waits long enough to be starving, fails to get the
mutex (0 re-took it), switches to starvation mode, and 0's next `unlock` hands
the mutex to 1 directly. -/
def starveTrace : List (Nat × Choice) :=
  -- 0 locks, 1 parks
  rep 0 2 ++ rep 1 10 ++
  -- 0 unlocks and wakes 1, then locks again before 1 runs
  rep 0 13 ++ rep 0 4 ++
  -- 1 runs, is starving, parks again in starvation mode
  rep 1 1 ++ rep 1 1 cs ++ rep 1 1 ++ rep 1 6

def outState : Out → Option Int
  | .next s => some s.state
  | _ => none
def outLog : Out → Option (List Ev)
  | .next s => some s.log
  | _ => none

-- the trace ends in starvation mode: LOCKED + STARVING + one waiter
example : outState (Mutex.run (init 2) starveTrace) = some (1 + 4 + 8) := by decide +kernel
-- and the mutex is handed over without passing through a free state
example : outLog (Mutex.run (init 2) (starveTrace ++ rep 0 12 ++ rep 1 3)) =
    some [.acquired 0, .unlock 0, .acquired 0, .unlock 0, .acquired 1] := by decide +kernel

/-- Contention with a parked waiter and a wake-up, to the end. -/
def fullTrace : List (Nat × Choice) := rep 0 2 ++ rep 1 10 ++ rep 0 13 ++ rep 1 5

/-- What the examples look at. -/
def summary : Out → Option (Option (Option Nat) × List PC × List Nat)
  | .next s => some (replay none s.log, s.ths.map (·.pc), s.q)
  | _ => none

-- a state that meets C45's hypotheses after a park and a wake-up
example : summary (Mutex.run (init 2) fullTrace) = some (some none, [.idle, .idle], []) := by
  decide +kernel
-- while somebody owns the mutex a waiter is really asleep
example : summary (Mutex.run (init 2) (rep 0 2 ++ rep 1 10)) =
    some (some (some 0), [.crit, .parked false false], [1]) := by decide +kernel
-- spinning sets WOKEN, so the unlocker leaves the wake-up to the spinner
example : outState (Mutex.run (init 3) (rep 0 2 ++ rep 1 10 ++ rep 2 3 ++ rep 2 1 cp)) =
    some (1 + 2 + 8) := by decide +kernel

end Nature.Mutex
