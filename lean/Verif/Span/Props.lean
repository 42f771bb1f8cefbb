import Verif.Span.Lemmas
import Verif.SizeClass.Model
/-!
C10: object slots of a span are never handed out twice.  C11: sweeping frees exactly the unmarked objects.

A history (`run`) starts from a fresh span and consists of allocations, stores into live objects, marking of
slots and sweeps.  With `strict` only live slots get marked; without it any slot may be.
-/
namespace Nature.Span
open Nature.Bitmap (Bytes)

/-- C10: after every history, with every marking, the live objects are pairwise disjoint and inside the span, and an
allocation returns a slot that is not live: the object lies
inside the span, overlaps no live object, is zeroed and leaves every other byte of memory alone; it fails only
when all slots are live. -/
theorem C10 (strict : Bool) (w : World) (base pages classSize : Nat) (hf : Fresh w base pages classSize)
    (ops : List Op) (s : St) (hr : run strict ⟨w, [], []⟩ ops = some s) :
    s.live.Nodup ∧
    s.live.Pairwise (fun i j => Disj s.w.span.objSize (s.w.span.base + i * s.w.span.objSize)
      (s.w.span.base + j * s.w.span.objSize)) ∧
    (∀ i ∈ s.live, s.w.span.base + i * s.w.span.objSize + s.w.span.objSize ≤ s.w.span.stop) ∧
    (stdMalloc s.w = none ↔ ∀ i, i < s.w.span.objCount → i ∈ s.live) ∧
    ∀ addr w', stdMalloc s.w = some (addr, w') →
      s.w.span.base ≤ addr ∧ addr + s.w.span.objSize ≤ s.w.span.stop ∧
      (∀ i ∈ s.live, Disj s.w.span.objSize addr (s.w.span.base + i * s.w.span.objSize)) ∧
      (∀ x, addr ≤ x → x < addr + s.w.span.objSize → w'.mem x = 0#8) ∧
      (∀ x, ¬ (addr ≤ x ∧ x < addr + s.w.span.objSize) → w'.mem x = s.w.mem x) := by
  have hi := run_inv (fresh_inv (strict := strict) hf) hr
  have hin : ∀ i, i < s.w.span.objCount →
      s.w.span.base + i * s.w.span.objSize + s.w.span.objSize ≤ s.w.span.stop := by
    intro i h
    have h1 : (i + 1) * s.w.span.objSize ≤ s.w.span.objCount * s.w.span.objSize := Nat.mul_le_mul_right _ h
    have := hi.room
    rw [Nat.add_mul, Nat.one_mul] at h1
    omega
  refine ⟨hi.lnd, hi.lnd.imp slot_disj, fun i h => hin i ((hi.lmem i).mp h).1, ⟨fun hn i h => ?_, fun hall => ?_⟩, fun addr w' he => ?_⟩
  · by_cases hlt : s.live.length < s.w.span.objCount
    · obtain ⟨j, w', he, _⟩ := alloc_spec hi hlt
      rw [he] at hn; cases hn
    · apply Classical.byContradiction
      intro hno
      have h1 := len_le (List.nodup_cons.mpr ⟨hno, hi.lnd⟩) (l2 := List.range s.w.span.objCount) (by
        intro x hx
        rw [List.mem_range]
        rcases List.mem_cons.mp hx with rfl | hx
        · exact h
        · exact ((hi.lmem x).mp hx).1)
      simp only [List.length_cons, List.length_range] at h1
      omega
  · have h1 := len_le (List.nodup_range (n := s.w.span.objCount)) (l2 := s.live)
      fun x hx => hall x (List.mem_range.mp hx)
    rw [List.length_range] at h1
    have h2 := live_le hi
    have h3 := hi.cnt
    rw [stdMalloc, if_pos (by omega)]
  · have hlt : s.live.length < s.w.span.objCount := by
      have h2 := live_le hi
      have h3 := hi.cnt
      by_cases hq : s.w.span.allocCount = s.w.span.objCount
      · rw [stdMalloc, if_pos hq] at he; cases he
      · omega
    obtain ⟨j, w2, he2, hj1, hj2, _, _, hz, hother, _⟩ := alloc_spec hi hlt
    rw [he2] at he
    cases he
    refine ⟨by omega, hin j hj1, fun i h => ?_, hz, hother⟩
    apply slot_disj
    intro e; subst e; exact hj2 h

/-- C10: the live count the runtime keeps is the number of live slots, so a span is taken for full exactly when
it is full. -/
theorem C10_count (strict : Bool) (w : World) (base pages classSize : Nat) (hf : Fresh w base pages classSize)
    (ops : List Op) (s : St) (hr : run strict ⟨w, [], []⟩ ops = some s) :
    s.w.span.allocCount = s.live.length :=
  (run_inv (fresh_inv (strict := strict) hf) hr).cnt

/-- C10: every size class of the allocator gives spans to which the theorems apply. -/
theorem C10_size_classes : ∀ c : Fin 68, c.val ≠ 0 → ∀ sz pg, SizeClass.classObjSize[c.val]? = some sz →
    SizeClass.classPagesCount[c.val]? = some pg → 0 < pg * 8192 / sz ∧ pg * 8192 / sz ≤ 1024 := by
  have : ∀ c : Fin 68, c.val ≠ 0 → 0 < SizeClass.classPagesCount[c.val]! * 8192 / SizeClass.classObjSize[c.val]! ∧
      SizeClass.classPagesCount[c.val]! * 8192 / SizeClass.classObjSize[c.val]! ≤ 1024 := by decide
  intro c hc sz pg h1 h2
  have h := this c hc
  rw [List.getElem!_eq_getElem?_getD, List.getElem!_eq_getElem?_getD, h1, h2] at h
  exact h

/-- C11: the sweep of a span with any allocation bitmap and any mark bitmap succeeds; afterwards the live slots
are exactly the marked ones, the live count is their number, the byte counter went down by the size of the slots
that were allocated and unmarked, no byte of memory changed, the new mark bitmap is clear, and the span is
returned to the heap iff no slot is marked (and put on the list of full spans iff all are). -/
theorem C11_sweep (w : World) (h0 : 0 < w.span.base) (h1 : 0 < w.span.objCount) (h2 : w.span.objCount ≤ 1024)
    (h3 : w.span.objCount ≤ 8 * w.span.allocBits.length) (h4 : w.span.objCount ≤ 8 * w.span.markBits.length) :
    ∃ fate w', sweepSpan w = some (fate, w') ∧
      (∀ i, i < w.span.objCount → isSet w'.span.allocBits i = isSet w.span.markBits i) ∧
      (∀ i, isSet w'.span.markBits i = false) ∧
      w'.span.allocCount = (slots w.span.markBits w.span.objCount).length ∧
      w'.allocated = w.allocated - BitVec.ofNat 64 (((List.range w.span.objCount).filter
        (fun i => isSet w.span.allocBits i && !isSet w.span.markBits i)).length * w.span.objSize) ∧
      w'.mem = w.mem ∧
      (fate = .toHeap ↔ ∀ i, i < w.span.objCount → isSet w.span.markBits i = false) ∧
      (fate = .full ↔ ∀ i, i < w.span.objCount → isSet w.span.markBits i = true) := by
  obtain ⟨fate, w', he, e1, e2, e3, e4, e5, e6, e7, e8, e9, e10, e11, e12⟩ := sweepSpan_eq h0 h1 h2 h3 h4
  have hzero : w'.span.allocCount = 0 ↔ ∀ i, i < w.span.objCount → isSet w.span.markBits i = false := by
    rw [e8, List.length_eq_zero_iff]
    constructor
    · intro h i hlt
      cases hm : isSet w.span.markBits i with
      | false => rfl
      | true => have := mem_slots.mpr ⟨hlt, hm⟩; rw [h] at this; simp at this
    · intro h
      apply List.eq_nil_iff_forall_not_mem.mpr
      intro i hi
      have := mem_slots.mp hi
      rw [h i this.1] at this; simp at this
  have hfull : w'.span.allocCount = w'.span.objCount ↔ ∀ i, i < w.span.objCount → isSet w.span.markBits i = true := by
    rw [e8, e3]
    constructor
    · intro h i hlt
      cases hm : isSet w.span.markBits i with
      | true => rfl
      | false =>
        exfalso
        have hn : (i :: slots w.span.markBits w.span.objCount).Nodup := by
          refine List.nodup_cons.mpr ⟨fun hmem => ?_, slots_nodup _ _⟩
          have := (mem_slots.mp hmem).2
          rw [hm] at this; cases this
        have := len_le hn (l2 := List.range w.span.objCount) (by
          intro x hx
          rw [List.mem_range]
          rcases List.mem_cons.mp hx with rfl | hx
          · exact hlt
          · exact (mem_slots.mp hx).1)
        simp only [List.length_cons, List.length_range] at this
        omega
    · intro h
      have a1 := len_le (List.nodup_range (n := w.span.objCount)) (l2 := slots w.span.markBits w.span.objCount)
        fun x hx => mem_slots.mpr ⟨List.mem_range.mp hx, h x (List.mem_range.mp hx)⟩
      have a2 := len_le (slots_nodup w.span.markBits w.span.objCount) (l2 := List.range w.span.objCount)
        fun x hx => List.mem_range.mpr (mem_slots.mp hx).1
      rw [List.length_range] at a1 a2
      omega
  refine ⟨fate, w', he, fun i _ => by rw [e6], fun i => by rw [e7, gcbits_isSet], e8, e11, e5, ?_, ?_⟩
  · rw [← hzero, e12]
    by_cases hz : w'.span.allocCount = 0
    · simp [hz]
    · rw [if_neg hz]; split <;> simp [hz]
  · rw [← hfull, e12]
    by_cases hz : w'.span.allocCount = 0
    · rw [if_pos hz, hz]
      have : w'.span.objCount ≠ 0 := by omega
      simp [Ne.symm this]
    · rw [if_neg hz]; split <;> rename_i hc <;> simp [hc]

/-- C11, byte accounting over whole histories of a small-object span in which only live slots are marked: the
global byte counter moves by exactly the size of the live slots.
Missing for the full property: large objects, for which it is false (`C11_large_counterexample`), and marks of
slots that are not live (`C11_stale_mark_counterexample`). -/
theorem C11_bytes_partial (w : World) (base pages classSize : Nat) (hf : Fresh w base pages classSize)
    (ops : List Op) (s : St) (hr : run true ⟨w, [], []⟩ ops = some s) :
    s.w.allocated = w.allocated + BitVec.ofNat 64 (s.live.length * s.w.span.objSize) :=
  (run_inv (fresh_inv (strict := true) hf) hr).bytes rfl

theorem large_set : ∃ b, Bitmap.set (gcbitsNew 1) 0 = some b ∧ b.length = 8 ∧ isSet b 0 = true := by
  refine ⟨_, rfl, rfl, rfl⟩

/-- C11 fails for large objects: allocating a large object whose size is not a whole number of pages adds its
size to the byte counter, but reclaiming it subtracts the size of its pages.  The counter ends below where it
started; from 0 it wraps to nearly 2^64. -/
theorem C11_large_counterexample (base size : Nat) (m : Mem) (al : BitVec 64) (hb : 0 < base)
    (hs : size % 8192 ≠ 0) :
    ∃ addr w w', largeMalloc base size m al = some (addr, w) ∧ sweepSpan w = some (.toHeap, w') ∧
      w'.allocated = al + BitVec.ofNat 64 size - BitVec.ofNat 64 ((size / 8192 + 1) * 8192) := by
  obtain ⟨b, hset, hlen, hbit⟩ := large_set
  refine ⟨base, ⟨⟨base, base + (size / 8192 + 1) * 8192, 1, (size / 8192 + 1) * 8192, 1, 0, b, gcbitsNew 1, false⟩,
    m, al + BitVec.ofNat 64 size⟩, ?_⟩
  obtain ⟨fate, w', he, h1, h2, h3, h4, h5, h6, _⟩ := C11_sweep ⟨⟨base, base + (size / 8192 + 1) * 8192, 1,
    (size / 8192 + 1) * 8192, 1, 0, b, gcbitsNew 1, false⟩, m, al + BitVec.ofNat 64 size⟩ hb (show 0 < 1 by decide) (show 1 ≤ 1024 by decide)
    (by simp only [hlen]; decide) (gcbits_length 1)
  have hfate : fate = .toHeap := h6.mpr fun i _ => gcbits_isSet _ _
  subst hfate
  refine ⟨w', ?_, he, ?_⟩
  · rw [largeMalloc]
    simp only [hs, ne_eq, not_false_eq_true, if_true, mspanNew, not_true_eq_false, if_false, hset]
    rfl
  · rw [h4]
    have : (List.filter (fun i => isSet b i && !isSet (gcbitsNew 1) i) (List.range 1)).length = 1 := by
      simp [List.range_succ, List.filter_cons, hbit, gcbits_isSet]
    simp only [this, Nat.one_mul]

/-- The consequence of `C11_large_counterexample` on an empty heap: one large object of 32769 bytes, collected,
leaves the counter of allocated bytes at 2^64 − 8191. -/
theorem C11_large_wrap_counterexample (m : Mem) : ∃ addr w w', largeMalloc 8192 32769 m 0#64 = some (addr, w) ∧
    sweepSpan w = some (.toHeap, w') ∧ w'.allocated.toNat = 2 ^ 64 - 8191 := by
  obtain ⟨addr, w, w', h1, h2, h3⟩ := C11_large_counterexample 8192 32769 m 0#64 (by decide) (by decide)
  exact ⟨addr, w, w', h1, h2, by rw [h3]; decide⟩

/-- C11 fails when a slot that was never handed out gets marked (runtime arrays and stacks are scanned
conservatively, so any word that looks like an address inside a span marks the slot): the slot counts as live
after the first sweep, and the second sweep subtracts its size from the byte counter although it was never
added. -/
theorem C11_stale_mark_counterexample :
    (run false ⟨⟨mspanNew 8192 1 4096, fun _ => 0#8, 0#64⟩, [], []⟩ [.mark 1, .sweep, .sweep]).map
      (fun s => (s.live, s.w.allocated.toNat)) = some ([], 2 ^ 64 - 4096) := by
  decide +kernel

/-! ### Concrete cases -/

/-- A fresh span of 4096-byte objects in one page. -/
theorem fresh_example : Fresh ⟨mspanNew 8192 1 4096, fun _ => 0#8, 0#64⟩ 8192 1 4096 :=
  ⟨rfl, by decide, by decide, fun _ _ _ => rfl, by decide, by decide⟩

/-- A non-trivial history permitted by the hypotheses: fill the span, write into both objects, keep only the
second over a collection, and allocate again: the first slot is reused, zeroed. -/
example : ∃ s, run true ⟨⟨mspanNew 8192 1 4096, fun _ => 0#8, 0#64⟩, [], []⟩
      [.alloc, .alloc, .write 8192 7#8, .write 12288 9#8, .mark 1, .sweep, .alloc] = some s ∧
    s.live = [0, 1] ∧ s.w.mem 8192 = 0#8 ∧ s.w.mem 12288 = 9#8 ∧ stdMalloc s.w = none := by
  refine ⟨_, rfl, ?_, ?_, ?_, ?_⟩ <;> decide +kernel

end Nature.Span
