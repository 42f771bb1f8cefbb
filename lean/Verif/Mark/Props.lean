import Verif.Mark.Lemmas
/-!
C12: marking with the world stopped finds exactly the reachable objects.

`Steps h ⟨[], roots⟩ s` is any run of the mark phase: at every step any pending address is served.
-/
namespace Nature.Mark

/-- C12: when the work list is empty, an object is marked iff it is reachable from the roots through pointer
fields — for every well-formed heap, root set and service order.
Missing for the full property: objects that cross an arena boundary (excluded by `WF.kinds`), for which it is
false (`ArenaBits.C12_crossing_counterexample`), and addresses in the unused tail of a span (excluded by
`WF.inside`), for which it is false too (`C12_tail_counterexample`). -/
theorem C12_exact_partial (h : Heap) (objs roots : List Nat) (wf : WF h objs)
    (hr : ∀ a ∈ roots, (h.spanOf a).isSome = true) (s : St) (hst : Steps h ⟨[], roots⟩ s) (hdone : s.pending = []) :
    ∀ o, o ∈ s.marked ↔ Reach h roots o := by
  have hi := steps_inv wf (init_inv (objs := objs) hr) hst
  intro o
  refine ⟨hi.mreach o, fun hreach => ?_⟩
  induction hreach with
  | root a o sp ha hp =>
    rcases hi.rootsIn a ha o sp hp with h1 | ⟨p, h1, _⟩
    · exact h1
    · rw [hdone] at h1; simp at h1
  | field o o' _ hf ih =>
    rcases hi.closed o ih o' hf with h1 | ⟨p, h1, _⟩
    · exact h1
    · rw [hdone] at h1; simp at h1

/-- C12: the mark phase never gets stuck: at every point of every run every pending address can be handled, so
no assertion fails and no bit array is left. -/
theorem C12_progress_partial (h : Heap) (objs roots : List Nat) (wf : WF h objs)
    (hr : ∀ a ∈ roots, (h.spanOf a).isSome = true) (s : St) (hst : Steps h ⟨[], roots⟩ s) : ¬ Stuck h s := by
  have hi := steps_inv wf (init_inv (objs := objs) hr) hst
  rintro ⟨a, ha, hn⟩
  obtain ⟨sp, hsp⟩ := Option.isSome_iff_exists.mp (hi.pend a ha)
  rcases handle_spec wf (marked := s.marked) hsp with ⟨_, heq⟩ | ⟨_, _, heq, _⟩
  · rw [heq] at hn; cases hn
  · rw [heq] at hn; cases hn

/-- C12: the mark phase terminates: there is no infinite run, whatever the order of service. -/
theorem C12_terminates_partial (h : Heap) (objs roots : List Nat) (wf : WF h objs)
    (hr : ∀ a ∈ roots, (h.spanOf a).isSome = true) (f : Nat → St) (h0 : f 0 = ⟨[], roots⟩)
    (hf : ∀ n, Step h (f n) (f (n + 1))) : False := by
  have hinv : ∀ n, Inv h roots objs (f n) := by
    intro n
    induction n with
    | zero => rw [h0]; exact init_inv hr
    | succ n ih => exact step_inv wf ih (hf n)
  have hbound : ∀ n, (f n).marked.length ≤ objs.length := fun n => len_le (hinv n).nodup (hinv n).mobjs
  -- by induction on the number of objects left to mark and the length of the work list
  have key : ∀ (left len : Nat) (n : Nat), objs.length - (f n).marked.length ≤ left →
      (f n).pending.length ≤ len → False := by
    intro left
    induction left with
    | zero =>
      intro len
      induction len with
      | zero =>
        intro n h1 h2
        have hb := hbound (n + 1)
        have hb0 := hbound n
        rcases step_measure wf (hinv n) (hf n) with h3 | ⟨h3, h4⟩ <;> omega
      | succ len ih =>
        intro n h1 h2
        have hb := hbound (n + 1)
        have hb0 := hbound n
        rcases step_measure wf (hinv n) (hf n) with h3 | ⟨h3, h4⟩
        · omega
        · exact ih (n + 1) (by omega) (by omega)
    | succ left ihl =>
      intro len
      induction len with
      | zero =>
        intro n h1 h2
        have hb := hbound (n + 1)
        rcases step_measure wf (hinv n) (hf n) with h3 | ⟨h3, h4⟩
        · exact ihl (f (n + 1)).pending.length (n + 1) (by omega) (Nat.le_refl _)
        · omega
      | succ len ih =>
        intro n h1 h2
        have hb := hbound (n + 1)
        rcases step_measure wf (hinv n) (hf n) with h3 | ⟨h3, h4⟩
        · exact ihl (f (n + 1)).pending.length (n + 1) (by omega) (Nat.le_refl _)
        · exact ih (n + 1) (by omega) (by omega)
  exact key _ _ 0 (Nat.le_refl _) (Nat.le_refl _)

/-- A small heap: one span of four objects of two words, of which the first is a pointer.  Object 0 points into
object 1, object 1 points back to object 0, object 2 points to object 3, and the scalar word of object 0 holds
the address of object 3. -/
def exSpan : SpanInfo := ⟨0xc000000000, 0xc000000040, 16, 4, true⟩

def exHeap : Heap where
  spanOf a := if 0xc000000000 ≤ a ∧ a < 0xc000000040 then some exSpan else none
  kinds := ⟨0xc000000000, fun _ => some [0b0101#8, 0b0101#8]⟩
  load a :=
    if a = 0xc000000000 then 0xc000000018
    else if a = 0xc000000008 then 0xc000000030
    else if a = 0xc000000010 then 0xc000000000
    else if a = 0xc000000020 then 0xc000000030 else 0

theorem exHeap_span {a : Nat} {s : SpanInfo} (hs : exHeap.spanOf a = some s) :
    s = exSpan ∧ 0xc000000000 ≤ a ∧ a < 0xc000000040 ∧
    (objStart s a = 0xc000000000 ∨ objStart s a = 0xc000000010 ∨ objStart s a = 0xc000000020 ∨
      objStart s a = 0xc000000030) := by
  simp only [exHeap] at hs
  split at hs
  · rename_i hc
    cases hs
    refine ⟨rfl, hc.1, hc.2, ?_⟩
    simp only [objStart, exSpan]; omega
  · cases hs

theorem exHeap_wf : WF exHeap [0xc000000000, 0xc000000010, 0xc000000020, 0xc000000030] where
  size a s hs := by rw [(exHeap_span hs).1]; decide
  inside a s hs := by
    obtain ⟨rfl, h1, h2, _⟩ := exHeap_span hs
    exact ⟨h1, by simpa [exSpan] using h2⟩
  same a s hs := by
    obtain ⟨rfl, _, _, h3⟩ := exHeap_span hs
    rcases h3 with h3 | h3 | h3 | h3 <;> rw [h3] <;> rfl
  objs a s hs := by
    obtain ⟨rfl, _, _, h3⟩ := exHeap_span hs
    rcases h3 with h3 | h3 | h3 | h3 <;> rw [h3] <;> decide
  kinds a s hs _ k hk := by
    obtain ⟨rfl, _, _, h3⟩ := exHeap_span hs
    have hk2 : k = 0 ∨ k = 1 := by simp only [exSpan] at hk; omega
    rcases h3 with h3 | h3 | h3 | h3 <;> rw [h3] <;> rcases hk2 with rfl | rfl <;> decide +kernel

/-- The hypotheses of the three theorems are met by the small heap with an interior pointer as the only root, a
run that empties the work list exists, and the theorem then says that object 3 is not reachable although a
scalar word of a reachable object holds its address. -/
example : ∃ s, Steps exHeap ⟨[], [0xc000000008]⟩ s ∧ s.pending = [] ∧
    s.marked = [0xc000000010, 0xc000000000] ∧ ¬ Reach exHeap [0xc000000008] 0xc000000030 := by
  have s1 : Step exHeap ⟨[], [0xc000000008]⟩ ⟨[0xc000000000], [0xc000000018]⟩ :=
    Step.serve [] [] _ _ _ [0xc000000018] (by simp [handleGcPtr, exHeap, exSpan, objStart, scanObj]; decide +kernel)
  have s2 : Step exHeap ⟨[0xc000000000], [0xc000000018]⟩ ⟨[0xc000000010, 0xc000000000], [0xc000000000]⟩ :=
    Step.serve [] [] _ _ _ [0xc000000000] (by simp [handleGcPtr, exHeap, exSpan, objStart, scanObj]; decide +kernel)
  have s3 : Step exHeap ⟨[0xc000000010, 0xc000000000], [0xc000000000]⟩ ⟨[0xc000000010, 0xc000000000], []⟩ :=
    Step.serve [] [] _ _ _ [] (by simp [handleGcPtr, exHeap, exSpan, objStart])
  have hs := Steps.tail _ _ _ (Steps.tail _ _ _ (Steps.tail _ _ _ (Steps.refl _) s1) s2) s3
  refine ⟨_, hs, rfl, rfl, fun hr => ?_⟩
  have := (C12_exact_partial exHeap _ _ exHeap_wf (by decide) _ hs rfl 0xc000000030).mpr hr
  revert this; decide

/-- Pointer bits: only word 1024 (the first word of the second page) is a pointer. -/
def tailBits : Bitmap.Bytes := List.replicate 256 0#8 ++ [1#8]

/-- Two spans of one page: 170 objects of 48 bytes with an unused tail of 32 bytes, and 512 objects of 16 bytes
whose first one is a pointer to object 1 of its span. -/
def tailHeap : Heap where
  spanOf a :=
    if 0xc000000000 ≤ a ∧ a < 0xc000002000 then some ⟨0xc000000000, 0xc000002000, 48, 170, true⟩
    else if 0xc000002000 ≤ a ∧ a < 0xc000004000 then some ⟨0xc000002000, 0xc000004000, 16, 512, true⟩
    else none
  kinds := ⟨0xc000000000, fun _ => some tailBits⟩
  load a := if a = 0xc000002000 then 0xc000002010 else 0

/-- C12 fails for an address in the unused tail of a span (which a stale word of a conservatively scanned stack
can be): the address belongs to no object, yet the mark phase marks slot number `obj_count` and scans it, going
on past the end of the span into the next one, and pushes what an unreachable object there points to. -/
theorem C12_tail_counterexample :
    handleGcPtr tailHeap [] 0xc000001fe8 = some ([0xc000001fe0], [0xc000002010]) ∧
    (¬ ∃ o s, PointsInto tailHeap 0xc000001fe8 o s) ∧
    ∀ o, ¬ Reach tailHeap [0xc000001fe8] o := by
  have hno : ¬ ∃ o s, PointsInto tailHeap 0xc000001fe8 o s := by
    rintro ⟨o, s, hs, k, hk, ho, h1, h2⟩
    simp only [tailHeap] at hs
    rw [if_pos (by decide)] at hs
    cases hs
    simp only at *
    omega
  refine ⟨?_, hno, fun o hr => ?_⟩
  · simp [handleGcPtr, tailHeap, objStart, scanObj]; decide +kernel
  · induction hr with
    | root a o s ha hp =>
      rw [List.mem_singleton] at ha; subst ha
      exact hno ⟨o, s, hp⟩
    | field _ _ _ _ ih => exact ih

end Nature.Mark
