import Verif.Mutex.Model
/-!
What a user expects of a mutex, over the log of calls and returns only.
-/
namespace Nature.Mutex

/-- Replay a log from owner `o`: who owns the mutex afterwards.  The outer
`none` means the log broke mutual exclusion: somebody acquired while somebody
owned it, or somebody released what they did not own. -/
def replay (o : Option Nat) : List Ev → Option (Option Nat)
  | [] => some o
  | .acquired i :: es => if o = none then replay (some i) es else none
  | .unlock i :: es => if o = some i then replay none es else none
  | .tryFailed _ :: es => replay o es

/-- The log respects mutual exclusion: acquisitions and releases alternate and
each release is by the coroutine that acquired. -/
def Exclusive (log : List Ev) : Prop := ∃ o, replay none log = some o

/-- The coroutine that has acquired the mutex and not yet called `unlock`. -/
def Owns (s : St) (i : Nat) : Prop := replay none s.log = some (some i)

/-- Coroutine `i` is not inside a mutex call and does not hold the mutex. -/
def Outside (s : St) (i : Nat) : Prop := ∀ th, s.ths[i]? = some th → th.pc = .idle

/-- Coroutine `i` cannot take a step, whatever the environment chooses. -/
def Stuck (s : St) (i : Nat) : Prop := ∀ c, step s i c = .blocked

end Nature.Mutex
