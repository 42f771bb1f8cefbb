import Verif.Mutex.Spec
/-!
The inductive invariant: counts of coroutines per role, tied to the words.
-/
namespace Nature.Mutex

/-! ### Sums over coroutines -/

def tot (f : Th → Int) : List Th → Int
  | [] => 0
  | t :: l => f t + tot f l

theorem tot_set {f : Th → Int} {l : List Th} {i : Nat} {a : Th} (b : Th)
    (h : l[i]? = some a) : tot f (l.set i b) = tot f l - f a + f b := by
  induction l generalizing i with
  | nil => simp at h
  | cons t l ih =>
    cases i with
    | zero => simp at h; subst h; simp [tot]; omega
    | succ i => simp at h; simp [tot, ih h]; omega

theorem tot_nonneg {f : Th → Int} (hf : ∀ t, 0 ≤ f t) (l : List Th) : 0 ≤ tot f l := by
  induction l with
  | nil => simp [tot]
  | cons t l ih => have := hf t; simp [tot]; omega

theorem tot_ge {f : Th → Int} (hf : ∀ t, 0 ≤ f t) {l : List Th} {i : Nat} {a : Th}
    (h : l[i]? = some a) : f a ≤ tot f l := by
  induction l generalizing i with
  | nil => simp at h
  | cons t l ih =>
    have h0 := hf t
    have h1 := tot_nonneg hf l
    cases i with
    | zero => simp at h; subst h; simp [tot]; omega
    | succ i => simp at h; have := ih h; simp [tot]; omega

theorem tot_ge2 {f : Th → Int} (hf : ∀ t, 0 ≤ f t) {l : List Th} {i j : Nat} {a b : Th}
    (hij : i ≠ j) (hi : l[i]? = some a) (hj : l[j]? = some b) : f a + f b ≤ tot f l := by
  induction l generalizing i j with
  | nil => simp at hi
  | cons t l ih =>
    have h0 := hf t
    cases i with
    | zero =>
      cases j with
      | zero => exact absurd rfl hij
      | succ j => simp at hi hj; subst hi; have := tot_ge hf hj; simp [tot]; omega
    | succ i =>
      cases j with
      | zero => simp at hi hj; subst hj; have := tot_ge hf hi; simp [tot]; omega
      | succ j =>
        simp at hi hj
        have := ih (fun h => hij (by rw [h])) hi hj
        simp [tot]; omega

theorem tot_replicate {f : Th → Int} {t : Th} (h : f t = 0) (n : Nat) :
    tot f (List.replicate n t) = 0 := by
  induction n with
  | zero => rfl
  | succ n ih => simp [List.replicate_succ, tot, ih, h]

theorem tot_zero {f : Th → Int} {l : List Th} (h : ∀ (i : Nat) t, l[i]? = some t → f t = 0) :
    tot f l = 0 := by
  induction l with
  | nil => rfl
  | cons t l ih =>
    have h0 := h 0 t (by simp)
    have := ih (fun i u hu => h (i+1) u (by simpa using hu))
    simp [tot, h0, this]

/-! ### Roles -/

/-- holds the mutex -/
def hold (t : Th) : Int := match t.pc with | .crit => 1 | _ => 0
/-- owns the WOKEN bit while competing -/
def awk (t : Th) : Int :=
  match t.pc with | .reload true _ _ => 1 | .loop _ true _ _ => 1 | _ => 0
/-- carries a wake-up permission -/
def gr (t : Th) : Int :=
  match t.pc with
  | .rel => 1 | .rTick _ => 1 | .tok _ => 1 | .wDec _ => 1 | .wChk _ => 1 | .wUnl _ => 1
  | .parked _ _ => if t.ticket then 1 else 0
  | .wRetry _ _ => if t.ticket then 1 else 0
  | .uChk new => if isS new then 1 else 0
  | _ => 0
/-- was handed the mutex in starvation mode -/
def hnd (t : Th) : Int := match t.pc with | .hand _ _ => 1 | _ => 0
/-- counted as waiting -/
def wtg (t : Th) : Int :=
  match t.pc with
  | .wAcq _ _ => 1 | .wLock _ _ => 1 | .wInc _ _ => 1 | .wSem _ _ => 1 | .wDec _ => 1
  | .wChk _ => 1 | .wUnl _ => 1 | .wPush _ _ => 1 | .wPark _ _ => 1 | .parked _ _ => 1
  | .wRetry _ _ => 1 | .tok _ => 1 | .hand _ _ => 1 | _ => 0
/-- about to push itself -/
def psh (t : Th) : Int := match t.pc with | .wPush _ _ => 1 | _ => 0
/-- inside the locker, counted in `waiter_count` but not in the list -/
def dw2 (t : Th) : Int :=
  match t.pc with | .wSem _ _ => 1 | .wDec _ => 1 | .rDec _ => 1 | _ => 0
/-- inside the locker otherwise -/
def inl (t : Th) : Int :=
  match t.pc with
  | .wInc _ _ => 1 | .wChk _ => 1 | .wUnl _ => 1 | .wPark _ _ => 1
  | .rLoad2 => 1 | .rUnl0 => 1 | .rUnl _ => 1 | _ => 0
def pop (t : Th) : Int := match t.pc with | .rPop => 1 | _ => 0
def as2 (t : Th) : Int := match t.pc with | .rAss2 => 1 | _ => 0
/-- will look at the semaphore again -/
def act (t : Th) : Int :=
  match t.pc with
  | .rLoad => 1 | .rLock => 1 | .rLoad2 => 1 | .rPop => 1 | .rDec _ => 1 | .rUnl _ => 1
  | .rSem _ => 1 | .wRetry _ _ => 1 | _ => 0
/-- an unlocked word with waiters and nothing else -/
def good (x : Int) : Bool := x % 8 = 0 && decide (8 ≤ x)
/-- an unlocker that will still wake somebody -/
def unl (t : Th) : Int :=
  match t.pc with
  | .uReload => 1
  | .uLoop old => if good old then 1 else 0
  | .uChk new => if good new then 1 else 0
  | _ => 0
/-- refers to `w` as the popped waiter, before the ticket is decided -/
def refP (w : Nat) (t : Th) : Int :=
  match t.pc with
  | .rDec v => if v = w then 1 else 0 | .rUnl v => if v = w then 1 else 0
  | .rSem v => if v = w then 1 else 0 | .rTick v => if v = w then 1 else 0 | _ => 0
/-- about to make `w` runnable -/
def refW (w : Nat) (t : Th) : Int :=
  match t.pc with | .rWake v => if v = w then 1 else 0 | _ => 0
/-- in the list or popped and not yet made runnable -/
def prk (t : Th) : Int := match t.pc with | .wPark _ _ => 1 | .parked _ _ => 1 | _ => 0

/-- Facts about one coroutine's locals. -/
def Loc (st : Int) (t : Th) : Prop :=
  match t.pc with
  | .loop old awoke starving _ =>
    (starving = true → awoke = true) ∧ (awoke = true → isW old = true)
  | .reload awoke starving _ => starving = true → awoke = true
  | .hand old _ => isL old = false ∧ isW old = false ∧ 1 ≤ cnt old ∧ cnt old ≤ cnt st
  | .uChk new => isL new = false
  | .wLock _ _ | .wInc _ _ | .wSem _ _ | .wPush _ _ | .wPark _ _ => t.ticket = false
  | _ => True

/-- The state word against the roles.  In normal mode the WOKEN bit is owned by
exactly one wake-up permission or one awoken competitor; in starvation mode the
unlocked word means exactly one hand-over is under way. -/
def Core (state sema H A G X Q : Int) : Prop :=
  0 ≤ state ∧ H = state % 2 ∧
  ((state / 4 % 2 = 0 ∧ sema + G + A = state / 2 % 2 ∧ X = 0 ∧ Q = state / 8 + sema + G) ∨
   (state / 4 % 2 = 1 ∧ state / 2 % 2 = 0 ∧ A = 0 ∧ sema + G + X = 1 - state % 2 ∧
    Q = state / 8 ∧ 1 ≤ state / 8))

def b2i (b : Bool) : Int := if b then 1 else 0

/-- The counting invariant. -/
structure Num (s : St) : Prop where
  semaNN : 0 ≤ s.sema
  core : Core s.state s.sema (tot hold s.ths) (tot awk s.ths) (tot gr s.ths) (tot hnd s.ths)
    (tot wtg s.ths)
  lock : tot psh s.ths + tot dw2 s.ths + tot inl s.ths + tot pop s.ths + tot as2 s.ths = b2i s.lk
  count : s.wc = s.q.length + tot psh s.ths + tot dw2 s.ths
  popNZ : tot pop s.ths ≤ 0 ∨ s.wc ≠ 0
  as2Z : tot as2 s.ths ≤ 0 ∨ s.wc = 0
  seen : s.sema ≤ 0 ∨ s.q.length + tot psh s.ths ≤ 0 ∨ 1 ≤ tot act s.ths
  woke : s.state % 8 ≠ 0 ∨ s.state < 8 ∨ 1 ≤ tot unl s.ths

/-- The invariant about who is in the waiter list. -/
structure Que (s : St) : Prop where
  occ : ∀ w, (s.q.count w : Int) + tot (refP w) s.ths + tot (refW w) s.ths =
    match s.ths[w]? with | some t => prk t | none => 0
  tick : ∀ (w : Nat) t, s.ths[w]? = some t →
    (match t.pc with | .parked _ _ => True | _ => False) → t.ticket = true →
    (s.q.count w : Int) + tot (refP w) s.ths = 0
  pk : ∀ (w : Nat) t, s.ths[w]? = some t →
    (match t.pc with | .wPark _ _ => True | _ => False) →
    tot (refP w) s.ths + tot (refW w) s.ths = 0

structure Inv (s : St) : Prop where
  num : Num s
  que : Que s
  loc : ∀ (i : Nat) t, s.ths[i]? = some t → Loc s.state t
  log : ∃ o, replay none s.log = some o ∧
    match o with
    | none => tot hold s.ths = 0
    | some i => ∃ t, s.ths[i]? = some t ∧ t.pc = .crit

end Nature.Mutex
