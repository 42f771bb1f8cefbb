import Verif.ConcGc.Lemmas
/-!
C13: a collection that runs concurrently with the program never frees a reachable object.

The property as stated is false of this code; three runs that violate it come first.  Then the fragment for
which it holds.
-/
namespace Nature.ConcGc

/-- Two objects, 0 with a field pointing to 1; coroutine 0 has object 0 on its stack. -/
def heap2 : St where
  heap o := if o = 0 then [some 1] else []
  next := 2
  globals := []
  stack c := if c = 0 then [0] else []
  cos := 1
  black _ := false
  marked _ := false
  pending := []
  flight _ := .idle

theorem heap2_start : Start heap2 :=
  ⟨fun _ => rfl, rfl, fun _ => rfl, fun _ => rfl, fun o ho => by
    have : 2 ≤ o := ho
    simp only [heap2]; rw [if_neg (by omega)]⟩

/-- The coroutine's stack is scanned; it loads the pointer to object 1 and then sets the field to nil.  The barrier
shades the object that contains the slot, not the pointer that is overwritten. -/
def loadDelete : List Ev := [.scan 0, .load 0 (.heap 0 0), .store 0 (.heap 0 0) none, .commit 0, .serve 0, .serve 0]

theorem exists_of_map {α β : Type} {o : Option α} {f : α → β} {b : β} (h : o.map f = some b) :
    ∃ a, o = some a ∧ f a = b := by
  cases o with
  | none => cases h
  | some a => exact ⟨a, rfl, Option.some.inj h⟩

/-- C13 is false: marking is complete, object 1 is on the stack of the coroutine, and it is not marked, so the
sweep frees it. -/
theorem C13_load_delete_counterexample : Start heap2 ∧ ∃ s, runs heap2 loadDelete = some s ∧ s.done ∧ Reach s 1 ∧
    s.marked 1 = false := by
  have h : (runs heap2 loadDelete).map (fun s => (s.pending, s.cos, s.black 0, s.flight 0, s.stack 0, s.marked 1)) =
      some ([], 1, true, .idle, [1, 0], false) := by decide
  obtain ⟨s, e, hs⟩ := exists_of_map h
  simp only [Prod.mk.injEq] at hs
  obtain ⟨h1, h2, h3, h4, h5, h6⟩ := hs
  refine ⟨heap2_start, s, e, ⟨h1, fun c hc => ?_⟩, .stack 0 1 (by omega) (by rw [h5]; simp), h6⟩
  have : c = 0 := by omega
  subst this; exact ⟨h3, h4⟩

/-- Object 0 is the buffer of a channel with one empty slot, object 1 a message.  Coroutine 0 has both on its
stack, coroutine 1 the channel. -/
def chan2 : St where
  heap o := if o = 0 then [none] else []
  next := 2
  globals := []
  stack c := if c = 0 then [0, 1] else [0]
  cos := 2
  black _ := false
  marked _ := false
  pending := []
  flight _ := .idle

theorem chan2_start : Start chan2 :=
  ⟨fun _ => rfl, rfl, fun _ => rfl, fun _ => rfl, fun o ho => by
    have : 2 ≤ o := ho
    simp only [chan2]; rw [if_neg (by omega)]⟩

/-- Coroutine 1 is scanned and the buffer is marked; then coroutine 0 sends and forgets the message. -/
def bufSend : List Ev := [.scan 1, .serve 0, .sendBuf 0 0 0 1, .drop 0 1, .scan 0, .serve 0]

/-- C13 is false: the message is in the channel's buffer, which the receiver can reach, but a send runs no barrier,
and nothing is overwritten here. -/
theorem C13_channel_counterexample : Start chan2 ∧ ∃ s, runs chan2 bufSend = some s ∧ s.done ∧ Reach s 1 ∧ s.marked 1 = false := by
  have h : (runs chan2 bufSend).map (fun s => (s.pending, s.cos, s.black 0, s.flight 0, s.black 1, s.flight 1, s.stack 1,
      s.heap 0, s.marked 1)) = some ([], 2, true, .idle, true, .idle, [0], [some 1], false) := by rfl
  obtain ⟨s, e, hs⟩ := exists_of_map h
  simp only [Prod.mk.injEq] at hs
  obtain ⟨h1, h2, h3, h4, h5, h6, h7, h8, h9⟩ := hs
  refine ⟨chan2_start, s, e, ⟨h1, fun c hc => ?_⟩, .field 0 1 (.stack 1 0 (by omega) (by rw [h7]; simp)) (by rw [Child, h8]; simp), h9⟩
  have : c = 0 ∨ c = 1 := by omega
  rcases this with rfl | rfl
  · exact ⟨h3, h4⟩
  · exact ⟨h5, h6⟩

/-- The receiver, already scanned, waits on the channel; the message is copied to its stack. -/
def directSend : List Ev := [.scan 1, .serve 0, .sendTo 0 1 1, .drop 0 1, .scan 0, .serve 0]

/-- C13 is false: a message handed directly to a waiting coroutine whose stack has been scanned. -/
theorem C13_direct_send_counterexample : Start chan2 ∧ ∃ s, runs chan2 directSend = some s ∧ s.done ∧ Reach s 1 ∧ s.marked 1 = false := by
  have h : (runs chan2 directSend).map (fun s => (s.pending, s.cos, s.black 0, s.flight 0, s.black 1, s.flight 1, s.stack 1,
      s.marked 1)) = some ([], 2, true, .idle, true, .idle, [1, 0], false) := by rfl
  obtain ⟨s, e, hs⟩ := exists_of_map h
  simp only [Prod.mk.injEq] at hs
  obtain ⟨h1, h2, h3, h4, h5, h6, h7, h9⟩ := hs
  refine ⟨chan2_start, s, e, ⟨h1, fun c hc => ?_⟩, .stack 1 1 (by omega) (by rw [h7]; simp), h9⟩
  have : c = 0 ∨ c = 1 := by omega
  rcases this with rfl | rfl
  · exact ⟨h3, h4⟩
  · exact ⟨h5, h6⟩

/-- C13 for the fragment in which it holds: if no store overwrites the only recorded way to a white object (a
pointer to an object that is neither marked nor pending), no coroutine whose stack is not scanned sends on a
channel (to a buffer, or to a scanned coroutine), and no two stores race on a slot, then when marking is complete
every object that the program can reach is marked, whatever else happened: loads, stores by any coroutine with
collector steps between the barrier and the store, forgetting, allocation, new coroutines, abandoned cycles.
Missing for the full property: the excluded events, with which it is false (the counterexamples above). -/
theorem C13_partial (s0 s : St) (h0 : Start s0) (hr : SafeRun s0 s) (hd : s.done) :
    ∀ y, Reach s y → s.marked y = true := by
  have hi := run_inv (start_inv h0) hr
  intro y hy
  apply prot_done hd hi
  induction hy with
  | stack c y hc h => exact hi.stacks c (hd.2 c hc).1 y h
  | glob y h => exact hi.globs y h
  | field o y _ h ih => exact prot_closed hi ih h

/-- A run with a test that implies `Safe` (for the examples). -/
def safeB (s : St) : Ev → Bool
  | .move .. => false
  | .post _ => false
  | .sendBuf .. => false
  | .sendTo c d _ => s.black c || !s.black d
  | .commit c =>
    match s.flight c with
    | .barriered (.heap o i) v =>
      match (s.heap o)[i]? with
      | some (some x) => decide (v = some x) || s.marked x || decide (x ∈ s.pending)
      | _ => true
    | _ => true
  | _ => true

theorem safe_of_safeB {s : St} {e : Ev} (h : safeB s e = true) : Safe s e := by
  cases e with
  | move => cases h
  | post => cases h
  | sendBuf => cases h
  | sendTo c d y =>
    simp only [safeB, Bool.or_eq_true, Bool.not_eq_true'] at h
    exact h
  | commit c =>
    intro l v hf
    cases l with
    | glob g => trivial
    | heap o i =>
      intro x hx
      simp only [safeB, hf, hx, Bool.or_eq_true, decide_eq_true_eq] at h
      rcases h with (h | h) | h
      · exact Or.inl h
      · exact Or.inr (fun hw => by rw [hw.1] at h; cases h)
      · exact Or.inr (fun hw => hw.2 h)
  | _ => trivial

def safeRuns (s : St) : List Ev → Option St
  | [] => some s
  | e :: es => if safeB s e then (apply s e).bind (safeRuns · es) else none

theorem safeRuns_run {s0 : St} : ∀ (es : List Ev) {a s : St}, SafeRun s0 a → safeRuns a es = some s → SafeRun s0 s
  | [], a, s, h, he => by simp only [safeRuns, Option.some.injEq] at he; exact he ▸ h
  | e :: es, a, s, h, he => by
    simp only [safeRuns] at he
    split at he
    · rename_i hs
      cases hb : apply a e with
      | none => rw [hb] at he; cases he
      | some b =>
        rw [hb] at he
        exact safeRuns_run es (.step _ _ _ e h (safe_of_safeB hs) hb) he
    · cases he

/-- Coroutine 0 allocates object 2 and is scanned, loads the pointer to object 1, and stores it in object 2;
between barrier and store a collector thread marks object 2, and afterwards everything pending.  Then it stores
nil over that pointer, which now points to a marked object, and forgets it. -/
def safeEvents : List Ev :=
  [.alloc 0 1, .scan 0, .load 0 (.heap 0 0), .store 0 (.heap 2 0) (some 1), .serve 0, .commit 0, .serve 0, .serve 0,
   .serve 0, .store 0 (.heap 2 0) none, .commit 0, .drop 0 0, .serve 0]

/-- The hypotheses of `C13_partial` are met by a run with loads, stores and deletions; object 1 is reachable at the
end. -/
example : ∃ s, SafeRun heap2 s ∧ s.done ∧ Reach s 1 ∧ s.marked 1 = true := by
  have h : (safeRuns heap2 safeEvents).map (fun s => (s.pending, s.cos, s.black 0, s.flight 0, s.stack 0, s.heap 0)) =
      some ([], 1, true, .idle, [2, 0], [some 1]) := by rfl
  obtain ⟨s, e, hs⟩ := exists_of_map h
  simp only [Prod.mk.injEq] at hs
  obtain ⟨h1, h2, h3, h4, h5, h6⟩ := hs
  have hrun := safeRuns_run safeEvents (.refl heap2) e
  have hd : s.done := ⟨h1, fun c hc => by
    have : c = 0 := by omega
    subst this; exact ⟨h3, h4⟩⟩
  have hr : Reach s 1 := .field 0 1 (.stack 0 0 (by omega) (by rw [h5]; simp)) (by rw [Child, h6]; simp)
  exact ⟨s, hrun, hd, hr, C13_partial heap2 s heap2_start hrun hd 1 hr⟩

end Nature.ConcGc
