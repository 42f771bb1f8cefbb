import Verif.GcBits.Lemmas
/-!
C08: mark-bit storage is never shared.

`Reachable s`: `s` is the state after any interleaving of any number of threads in `gcbits_new`, epoch changes and
writes of the owners; `s.blocks` are the blocks handed out so far, newest first.
-/
namespace Nature.GcBits

/-- C08: of two blocks handed out, the newer (`b`) shares no byte with the older (`c`) unless at least three epochs
(collection cycles) have ended in between. -/
theorem C08_disjoint (s : St) (h : Reachable s) :
    s.blocks.Pairwise (fun b c => Disjoint b c ∨ c.epoch + 3 ≤ b.epoch) := (reachable_inv h).pair

/-- C08: in particular the blocks of any three successive epochs never overlap. -/
theorem C08_live_disjoint (s : St) (h : Reachable s) :
    (s.blocks.filter (fun b => s.epoch ≤ b.epoch + 2)).Pairwise Disjoint := by
  have hi := reachable_inv h
  have hp : (s.blocks.filter (fun b => s.epoch ≤ b.epoch + 2)).Pairwise
      (fun b c => Disjoint b c ∨ c.epoch + 3 ≤ b.epoch) := hi.pair.filter _
  refine List.Pairwise.imp_of_mem ?_ hp
  intro b c hb hc h
  rcases h with h | h
  · exact h
  · exfalso
    have h1 := hi.age b (List.mem_filter.mp hb).1
    have h2 := (List.mem_filter.mp hc).2
    simp only [decide_eq_true_eq] at h2
    omega

/-- C08: every block lies inside its chunk, is aligned to eight bytes and has room for the bits asked for. -/
theorem C08_room (s : St) (h : Reachable s) (b : Block) (hb : b ∈ s.blocks) :
    b.start + b.len ≤ payload ∧ b.bits ≤ 8 * b.len ∧ b.start % 8 = 0 :=
  ⟨((reachable_inv h).size b hb).1, ((reachable_inv h).size b hb).2, (reachable_inv h).balign b hb⟩

/-- C08: a new block is for the request of the thread that makes the step, belongs to the present epoch, and all
its bits are zero, whatever the owners of other blocks have written. -/
theorem C08_zeroed (s s' : St) (h : Reachable s) (t : Nat) (hs : tstep s t = some s') (b : Block)
    (hb : s'.blocks = b :: s.blocks) :
    b.epoch = s.epoch ∧ b.bits = (match s.pc t with | .add _ n _ => n | _ => 0) ∧
    ∀ i, i < b.len → s'.mem b.arena (b.start + i) = 0 := grant_step (reachable_inv h) hs hb

/-- C08: the assertion in `gcbits_new` never fails for a request of up to 524160 bits (a span has at most 1024
objects, 2048 on one platform), however the threads interleave. -/
theorem C08_no_abort (s : St) (h : Reachable s) (t n : Nat) (hn : n ≤ 8 * payload) : s.pc t ≠ PC.aborted n := by
  intro hp
  have h1 := (reachable_abortOk h t n).1 hp
  have : bytesNeeded n ≤ payload := by
    simp only [bytesNeeded, payload] at *; omega
  omega

/-- A schedule: the threads that make the steps. -/
def runT (s : St) : List Nat → Option St
  | [] => some s
  | t :: ts => (tstep s t).bind (runT · ts)

theorem runT_reachable : ∀ (ts : List Nat) {s s' : St}, Reachable s → runT s ts = some s' → Reachable s'
  | [], s, s', h, e => by simp only [runT, Option.some.injEq] at e; exact e ▸ h
  | t :: ts, s, s', h, e => by
    simp only [runT] at e
    cases hs : tstep s t with
    | none => rw [hs] at e; cases e
    | some s1 =>
      rw [hs] at e
      exact runT_reachable ts (Reachable.step _ _ h (Step.run _ _ t hs)) e

/-- Two threads inside `gcbits_new` at once. -/
def two : St := (init.setPc 0 (.read .first 100)).setPc 1 (.read .first 200)

theorem two_reachable : Reachable two :=
  .step _ _ (.step _ _ .init (.call init 0 100 rfl)) (.call _ 1 200 rfl)

/-- Both threads find nothing and map an arena; thread 0 gets ahead; thread 1 then allocates from thread 0's arena
and gives its own back. -/
def sched : List Nat := [0, 1, 0, 1, 0, 0, 0, 0, 1, 1, 1, 1, 0, 1, 0, 0, 0, 0, 0, 0, 1, 1, 1, 1]

/-- A reachable state with two blocks in one arena: the hypotheses of the theorems above are met. -/
example : ∃ s, Reachable s ∧ s.blocks = [⟨200, 0, 16, 32, 0⟩, ⟨100, 0, 0, 16, 0⟩] ∧ s.free = [1] := by
  have h : (runT two sched).map (fun s => (s.blocks, s.free)) =
      some ([⟨200, 0, 16, 32, 0⟩, ⟨100, 0, 0, 16, 0⟩], [1]) := by decide +kernel
  cases e : runT two sched with
  | none => rw [e] at h; cases h
  | some s =>
    rw [e] at h
    simp only [Option.map_some, Option.some.injEq, Prod.mk.injEq] at h
    exact ⟨s, runT_reachable _ two_reachable e, h.1, h.2⟩

end Nature.GcBits
