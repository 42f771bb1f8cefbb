import Verif.Queue.Lemmas
/-
C25 for the runtime's queues with a blank last node (runtime/rt_linked.h): run queues, coroutine lists and
collector work lists.
-/
namespace Nature.Queue

/-- C25: in every reachable state the queue holds a definite list of entries, `count` is its length, no two entries
share a handle, nothing else is allocated; and every operation does to that list what its name says, without a failed
assertion or a wild access.  Handles of the other entries stay valid. -/
theorem C25_queue {q : Q} (h : Reachable q) : ∃ xs, Holds q xs ∧ q.count = xs.length ∧ (isEmpty q = true ↔ xs = []) ∧
    (xs.map (·.1)).Nodup ∧
    (∀ a v, Fresh q a → ∃ q', push q a v = some q' ∧ Holds q' (xs ++ [(q.rear, v)])) ∧
    (∀ a v, Fresh q a → ∃ q', pushFront q a v = some q' ∧ Holds q' ((a, v) :: xs)) ∧
    (xs = [] → pop q = some (0, q)) ∧
    (∀ a v ys, xs = (a, v) :: ys → ∃ q', pop q = some (v, q') ∧ Holds q' ys) ∧
    (∀ l a v r, xs = l ++ (a, v) :: r → ∃ q', remove q a = some q' ∧ Holds q' (l ++ r)) ∧
    first q = (xs.map (·.1)).headD 0 ∧ last q = some ((xs.map (·.1)).getLastD 0) ∧
    (∀ a, q.mem a ≠ none ↔ a = q.rear ∨ a ∈ xs.map (·.1)) := by
  obtain ⟨xs, r⟩ := reach_rep h
  refine ⟨xs, r.holds, r.count, ?_, ?_, ?_, ?_, ?_, ?_, ?_, ?_, ?_, ?_⟩
  · unfold isEmpty
    rw [r.count]
    cases xs <;> simp
  · have := r.nodup
    rw [full, List.map_append, List.nodup_append] at this
    exact this.1
  · intro a v hf
    obtain ⟨q', e, r', _⟩ := push_rep r v hf
    exact ⟨q', e, r'.holds⟩
  · intro a v hf
    obtain ⟨q', e, r', _⟩ := pushFront_rep r v hf
    exact ⟨q', e, r'.holds⟩
  · rintro rfl
    exact pop_nil r
  · rintro a v ys rfl
    obtain ⟨q', e, r', _⟩ := pop_rep r
    exact ⟨q', e, r'.holds⟩
  · rintro l a v rr rfl
    obtain ⟨q', e, r', _⟩ := remove_rep r
    exact ⟨q', e, r'.holds⟩
  · unfold first
    rw [r.count, r.head]
    cases xs <;> simp [hd]
  · rw [last_rep r]
    congr 1
    rcases snoc_cases xs with rfl | ⟨l, e, rfl⟩
    · rfl
    · rw [show l ++ [e] = l ++ [(e.1, e.2)] from rfl, lastOr_snoc]
      simp
  · intro a
    constructor
    · intro hm
      have := reach_tight h xs r a hm
      simp only [full, List.map_append, List.map_cons, List.map_nil, List.mem_append, List.mem_singleton] at this
      exact this.symm
    · intro ha
      have : a ∈ (full xs q.rear).map (·.1) := by
        simp only [full, List.map_append, List.map_cons, List.map_nil, List.mem_append, List.mem_singleton]
        exact ha.symm
      obtain ⟨e, he, rfl⟩ := List.mem_map.1 this
      obtain ⟨n, hn⟩ := DL_mem r.dl e he
      rw [hn]; simp

/-- A queue with three entries, one pushed at the front. -/
example : ∃ q1 q2 q3, push (init 1) 2 7 = some q1 ∧ pushFront q1 3 8 = some q2 ∧ push q2 4 9 = some q3 ∧
    Reachable q3 ∧ Holds q3 [(3, 8), (1, 7), (2, 9)] := by
  obtain ⟨q1, e1, r1, a1, f1⟩ := push_rep (init_rep 1 (by decide)) (a := 2) 7 ⟨by decide, rfl⟩
  have t1 : Reachable q1 := Reachable.push _ _ 2 7 (Reachable.init 1 (by decide)) ⟨by decide, rfl⟩ e1
  have hf1 : Fresh q1 3 := ⟨by decide, by rw [f1 3 (by decide) (by decide)]; rfl⟩
  obtain ⟨q2, e2, r2, a2, f2⟩ := pushFront_rep r1 8 hf1
  have hf2 : Fresh q2 4 := ⟨by decide, by
    rw [f2 4 (by decide) (by rw [a1]; simp [init]), f1 4 (by decide) (by decide)]; rfl⟩
  obtain ⟨q3, e3, r3, a3, f3⟩ := push_rep r2 9 hf2
  refine ⟨q1, q2, q3, e1, e2, e3, ?_, ?_⟩
  · exact Reachable.push _ _ 4 9 (Reachable.pushFront _ _ 3 8 t1 hf1 e2) hf2 e3
  · have := r3.holds
    rw [a2, a1] at this
    exact this

theorem step_abs {q q' : Q} {out out' : List Nat} {xs : List (Nat × Nat)} {o : Op} (r : Rep q xs)
    (h : ConcStep (q, out) o (q', out')) :
    ∃ ys, Rep q' ys ∧ (ys.map (·.2), out') = absStep (xs.map (·.2), out) o := by
  cases h with
  | push _ _ _ a v hf he =>
    obtain ⟨q2, e2, r2, _⟩ := push_rep r v hf
    rw [e2] at he; cases he
    exact ⟨_, r2, by simp [absStep]⟩
  | pushFront _ _ _ a v hf he =>
    obtain ⟨q2, e2, r2, _⟩ := pushFront_rep r v hf
    rw [e2] at he; cases he
    exact ⟨_, r2, by simp [absStep]⟩
  | pop _ _ _ v he =>
    cases xs with
    | nil => rw [pop_nil r] at he; cases he; exact ⟨_, r, by simp [absStep]⟩
    | cons e xs =>
      obtain ⟨q2, e2, r2, _⟩ := pop_rep r
      rw [e2] at he; cases he
      exact ⟨_, r2, by simp [absStep]⟩
  | removeAt _ _ _ i ys e hh hi he =>
    obtain rfl := r.holds.unique hh
    obtain ⟨hlt, rfl⟩ := List.getElem?_eq_some_iff.1 hi
    have hs : xs = xs.take i ++ (xs[i].1, xs[i].2) :: xs.drop (i + 1) := by
      show xs = xs.take i ++ xs[i] :: xs.drop (i + 1)
      rw [← List.drop_eq_getElem_cons hlt, List.take_append_drop]
    have r' := r
    rw [hs] at r'
    obtain ⟨q2, e2, r2, _⟩ := remove_rep r'
    rw [e2] at he; cases he
    refine ⟨_, r2, ?_⟩
    simp only [absStep, Prod.mk.injEq, and_true]
    rw [← List.eraseIdx_eq_take_drop_succ, List.eraseIdx_eq_take_drop_succ, List.eraseIdx_eq_take_drop_succ]
    simp
  | removeNone _ _ i ys hh hi =>
    obtain rfl := r.holds.unique hh
    exact ⟨_, r, by simp only [absStep]; rw [List.eraseIdx_of_length_le (by simpa using hi)]⟩

/-- C25 (whole runs): whatever sequence of operations is run on a new queue, and whatever addresses its nodes get,
the values popped and the contents are those of a list of values under the same operations. -/
theorem C25_run (e : Nat) (he : e ≠ 0) (ops : List Op) (q : Q) (out : List Nat)
    (h : ConcRun (init e, []) ops (q, out)) :
    ∃ xs, Holds q xs ∧ q.count = xs.length ∧ (xs.map (·.2), out) = ops.foldl absStep ([], []) := by
  suffices H : ∀ s ops s', ConcRun s ops s' → ∀ xs, Rep s.1 xs →
      ∃ ys, Rep s'.1 ys ∧ (ys.map (·.2), s'.2) = ops.foldl absStep (xs.map (·.2), s.2) by
    obtain ⟨ys, r, e⟩ := H _ _ _ h [] (init_rep e he)
    exact ⟨ys, r.holds, r.count, e⟩
  intro s ops s' h
  induction h with
  | nil s => intro xs r; exact ⟨xs, r, rfl⟩
  | cons s s' s'' o os hs hr ih =>
    intro xs r
    obtain ⟨ys, r1, e1⟩ := step_abs (q := s.1) (out := s.2) (q' := s'.1) (out' := s'.2) r hs
    obtain ⟨zs, r2, e2⟩ := ih ys r1
    exact ⟨zs, r2, by rw [e2, e1]; rfl⟩

theorem reach_step {s s' : Q × List Nat} {o : Op} (h : Reachable s.1) (hs : ConcStep s o s') : Reachable s'.1 := by
  cases hs with
  | push q q' out a v hf he => exact Reachable.push _ _ a v h hf he
  | pushFront q q' out a v hf he => exact Reachable.pushFront _ _ a v h hf he
  | pop q q' out v he => exact Reachable.pop _ _ v h he
  | removeAt q q' out i xs e hh hi he => exact Reachable.remove _ _ xs e.1 e.2 h hh (List.mem_of_getElem? hi) he
  | removeNone q out i xs hh hi => exact h

/-- C25 (no operation fails): any operation can be carried out in any reachable state, if the allocator has an
address to give. -/
theorem C25_progress {q : Q} (h : Reachable q) (out : List Nat) (o : Op) (a : Nat) (ha : Fresh q a) :
    ∃ s', ConcStep (q, out) o s' := by
  obtain ⟨xs, hh, _, _, _, hp, hf, hn, hc, hr, _⟩ := C25_queue h
  cases o with
  | push v => obtain ⟨q', e, _⟩ := hp a v ha; exact ⟨_, ConcStep.push q q' out a v ha e⟩
  | pushFront v => obtain ⟨q', e, _⟩ := hf a v ha; exact ⟨_, ConcStep.pushFront q q' out a v ha e⟩
  | pop =>
    cases xs with
    | nil => exact ⟨_, ConcStep.pop q q out 0 (hn rfl)⟩
    | cons e ys => obtain ⟨q', e, _⟩ := hc e.1 e.2 ys rfl; exact ⟨_, ConcStep.pop q q' out _ e⟩
  | removeAt i =>
    by_cases hi : i < xs.length
    · obtain ⟨q', e, _⟩ := hr (xs.take i) xs[i].1 xs[i].2 (xs.drop (i + 1)) (by
        show xs = xs.take i ++ xs[i] :: xs.drop (i + 1)
        rw [← List.drop_eq_getElem_cons hi, List.take_append_drop])
      exact ⟨_, ConcStep.removeAt q q' out i xs xs[i] hh (List.getElem?_eq_getElem hi) e⟩
    · exact ⟨_, ConcStep.removeNone q out i xs hh (by omega)⟩

/-- The values pushed at the back by a sequence of operations. -/
def pushed : List Op → List Nat
  | [] => []
  | .push v :: os => v :: pushed os
  | _ :: os => pushed os

/-- C25 (first in, first out): if a queue of non-NULL values is used with push and pop only, then the values popped,
followed by the values still queued, are exactly the values pushed, in the order of pushing. -/
theorem C25_fifo (e : Nat) (he : e ≠ 0) (ops : List Op) (q : Q) (out : List Nat)
    (hops : ∀ o ∈ ops, o = .pop ∨ ∃ v, v ≠ 0 ∧ o = .push v) (h : ConcRun (init e, []) ops (q, out)) :
    ∃ xs, Holds q xs ∧ out.filter (· ≠ 0) ++ xs.map (·.2) = pushed ops := by
  obtain ⟨xs, hh, _, e⟩ := C25_run e he ops q out h
  refine ⟨xs, hh, ?_⟩
  suffices H : ∀ ops s, (∀ o ∈ ops, o = .pop ∨ ∃ v, v ≠ 0 ∧ o = .push v) → (∀ v ∈ s.1, v ≠ 0) →
      (ops.foldl absStep s).2.filter (· ≠ 0) ++ (ops.foldl absStep s).1 = s.2.filter (· ≠ 0) ++ s.1 ++ pushed ops by
    have := H ops ([], []) hops (by simp)
    rw [← e] at this
    simpa using this
  clear h e hops
  intro ops
  induction ops with
  | nil => intro s _ _; simp [pushed]
  | cons o os ih =>
    intro s ho hv
    have ho' := fun o' ho1 => ho o' (List.mem_cons_of_mem _ ho1)
    rw [List.foldl_cons]
    rcases ho o (by simp) with rfl | ⟨v, hv0, rfl⟩
    · obtain ⟨c, out⟩ := s
      cases c with
      | nil =>
        rw [ih _ ho' (by simp [absStep])]
        simp [absStep, pushed]
      | cons x c =>
        have hx : x ≠ 0 := hv x (by simp)
        rw [ih _ ho' (fun v h => hv v (by simp only [absStep, List.tail_cons] at h; simp [h]))]
        simp [absStep, pushed, hx]
    · rw [ih _ ho' (fun v' h => by
        simp only [absStep, List.mem_append, List.mem_singleton] at h
        rcases h with h | h
        · exact hv v' h
        · rw [h]; exact hv0)]
      simp [absStep, pushed]

/-- C25 (walks): the collector's walk of a coroutine list, which stops at the first node holding NULL, visits every
entry once, in order, when no NULL was queued. -/
theorem C25_walk {q : Q} (h : Reachable q) {xs : List (Nat × Nat)} (hh : Holds q xs) (hv : ∀ e ∈ xs, e.2 ≠ 0) :
    walk q.mem (q.count + 1) q.head = some (xs.map (·.1)) := by
  obtain ⟨ys, r⟩ := reach_rep h
  obtain rfl := r.holds.unique hh
  have d := (DL_append ys [(q.rear, 0)] 0 0).1 r.dl
  rw [r.count]
  exact walk_chain hh d.2.1 rfl hv

/-- The hypotheses of `C25_fifo` are met by a run that pushes two values, pops three times. -/
example : ∃ q out, ConcRun (init 1, []) [.push 7, .push 8, .pop, .pop, .pop] (q, out) ∧ out = [7, 8, 0] := by
  have r0 := init_rep 1 (by decide)
  obtain ⟨q1, e1, r1, a1, f1⟩ := push_rep r0 (a := 2) 7 ⟨by decide, rfl⟩
  have hf1 : Fresh q1 3 := ⟨by decide, by rw [f1 3 (by decide) (by decide)]; rfl⟩
  obtain ⟨q2, e2, r2, a2, f2⟩ := push_rep r1 8 hf1
  obtain ⟨q3, e3, r3, _⟩ := pop_rep r2
  obtain ⟨q4, e4, r4, _⟩ := pop_rep r3
  have e5 := pop_nil r4
  refine ⟨q4, _, ?_, rfl⟩
  refine ConcRun.cons _ _ _ _ _ (ConcStep.push _ _ _ 2 7 ⟨by decide, rfl⟩ e1) ?_
  refine ConcRun.cons _ _ _ _ _ (ConcStep.push _ _ _ 3 8 hf1 e2) ?_
  refine ConcRun.cons _ _ _ _ _ (ConcStep.pop _ _ _ _ e3) ?_
  refine ConcRun.cons _ _ _ _ _ (ConcStep.pop _ _ _ _ e4) ?_
  refine ConcRun.cons _ _ _ _ _ (ConcStep.pop _ _ _ _ e5) ?_
  exact ConcRun.nil _

end Nature.Queue
