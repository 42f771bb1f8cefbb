import Verif.Span.Spec
import Verif.Bitmap.Lemmas
namespace Nature.Span
open Nature.Bitmap (Bytes)

theorem len_le {α : Type} [DecidableEq α] : ∀ {l1 l2 : List α}, l1.Nodup → (∀ x ∈ l1, x ∈ l2) → l1.length ≤ l2.length
  | [], _, _, _ => Nat.zero_le _
  | a :: t, l2, hn, hs => by
    rw [List.nodup_cons] at hn
    have ha : a ∈ l2 := hs a List.mem_cons_self
    have h1 : t.length ≤ (l2.erase a).length := by
      apply len_le hn.2
      intro x hx
      have hne : x ≠ a := by intro e; subst e; exact hn.1 hx
      exact (List.mem_erase_of_ne hne).mpr (hs x (List.mem_cons_of_mem _ hx))
    rw [List.length_erase_of_mem ha] at h1
    have : 0 < l2.length := List.length_pos_of_mem ha
    simp only [List.length_cons]; omega

theorem mem_slots {bits : Bytes} {n i : Nat} : i ∈ slots bits n ↔ i < n ∧ isSet bits i = true := by
  simp [slots, List.mem_filter]

theorem slots_nodup (bits : Bytes) (n : Nat) : (slots bits n).Nodup :=
  List.Pairwise.filter _ List.nodup_range

theorem length_eq_slots {bits : Bytes} {n : Nat} {l : List Nat} (hn : l.Nodup)
    (h : ∀ i, i ∈ l ↔ i < n ∧ isSet bits i = true) : l.length = (slots bits n).length := by
  have h1 := len_le hn (l2 := slots bits n) fun x hx => mem_slots.mpr ((h x).mp hx)
  have h2 := len_le (slots_nodup bits n) (l2 := l) fun x hx => (h x).mpr (mem_slots.mp hx)
  omega

theorem test_eq {bits : Bytes} {i : Nat} (h : i < 8 * bits.length) : Bitmap.test bits i = some (isSet bits i) := by
  rw [Bitmap.test_spec]
  have := (Bitmap.bit_isSome bits i).mpr h
  unfold isSet
  cases hb : Bitmap.bit bits i with
  | none => rw [hb] at this; cases this
  | some v => cases v <;> rfl

theorem set_eq {bits : Bytes} {i : Nat} (h : i < 8 * bits.length) :
    ∃ b', Bitmap.set bits i = some b' ∧ b'.length = bits.length ∧
      ∀ j, isSet b' j = if j = i then true else isSet bits j := by
  obtain ⟨b', h1, h2, h3⟩ := Bitmap.set_spec h
  refine ⟨b', h1, h2, fun j => ?_⟩
  unfold isSet
  rw [h3]
  split <;> rfl

theorem gcbits_isSet (n i : Nat) : isSet (gcbitsNew n) i = false := by
  unfold isSet gcbitsNew Bitmap.bit
  cases h : (List.replicate ((n + 63) / 64 * 8) 0#8)[i / 8]? with
  | none => rfl
  | some b =>
    have : b = 0#8 := by
      have := List.mem_of_getElem? h
      exact (List.mem_replicate.mp this).2
    subst this
    simp

theorem gcbits_length (n : Nat) : n ≤ 8 * (gcbitsNew n).length := by
  unfold gcbitsNew; rw [List.length_replicate]; omega

theorem scan_spec {bits : Bytes} : ∀ (n i : Nat), i + n ≤ 8 * bits.length →
    (∃ j, scan bits i n = some (some j) ∧ i ≤ j ∧ j < i + n ∧ isSet bits j = false) ∨
    (scan bits i n = some none ∧ ∀ j, i ≤ j → j < i + n → isSet bits j = true)
  | 0, i, _ => Or.inr ⟨rfl, fun j _ _ => by omega⟩
  | n + 1, i, h => by
    rw [scan, test_eq (by omega)]
    cases hb : isSet bits i with
    | false => exact Or.inl ⟨i, rfl, Nat.le_refl _, by omega, hb⟩
    | true =>
      rcases scan_spec (bits := bits) n (i + 1) (by omega) with ⟨j, h1, h2, h3, h4⟩ | ⟨h1, h2⟩
      · exact Or.inl ⟨j, h1, by omega, by omega, h4⟩
      · refine Or.inr ⟨h1, fun j hj1 hj2 => ?_⟩
        by_cases he : j = i
        · subst he; exact hb
        · exact h2 j (by omega) (by omega)

/-- Is slot `j` allocated and unmarked: will the sweep reclaim it? -/
def doomed (s : Span) (j : Nat) : Bool := isSet s.allocBits j && !isSet s.markBits j

theorem bv_sub_ofNat (a : BitVec 64) (m n : Nat) :
    a - BitVec.ofNat 64 m - BitVec.ofNat 64 n = a - BitVec.ofNat 64 (m + n) := by
  rw [BitVec.ofNat_add]
  apply BitVec.eq_of_toNat_eq
  simp only [BitVec.toNat_sub, BitVec.toNat_add, BitVec.toNat_ofNat]
  omega

theorem sweepLoop_spec {s : Span} : ∀ (n i : Nat) (a : Acc),
    i + n ≤ 8 * s.markBits.length → i + n ≤ 8 * s.allocBits.length →
    sweepLoop s i n a = some
      ⟨a.allocCount + (List.range' i n).countP (isSet s.markBits),
       a.freeIndex.orElse fun _ => (List.range' i n).find? (fun j => !isSet s.markBits j),
       a.hasFreed || (List.range' i n).any (doomed s),
       a.allocated - BitVec.ofNat 64 ((List.range' i n).countP (doomed s) * s.objSize)⟩
  | 0, i, a, _, _ => by
    rcases a with ⟨c, f, h, b⟩
    simp [sweepLoop]
  | n + 1, i, a, h1, h2 => by
    rw [sweepLoop, sweepSlot, test_eq (by omega)]
    cases hm : isSet s.markBits i with
    | true =>
      have hd : doomed s i = false := by simp [doomed, hm]
      simp only [Option.bind_some]
      rw [sweepLoop_spec n (i + 1) _ (by omega) (by omega)]
      simp only [List.range'_succ, List.countP_cons, List.find?_cons, List.any_cons, hm, hd, Bool.not_true,
        Bool.false_or, if_true, Option.some.injEq]
      simp only [Bool.false_eq_true, if_false, Nat.add_zero]
      congr 1; omega
    | false =>
      simp only
      rw [test_eq (by omega)]
      cases ha : isSet s.allocBits i with
      | true =>
        have hd : doomed s i = true := by simp [doomed, hm, ha]
        simp only [Option.bind_some]
        rw [sweepLoop_spec n (i + 1) _ (by omega) (by omega)]
        simp only [List.range'_succ, List.countP_cons, List.find?_cons, List.any_cons, hm, hd, Bool.not_false,
          Bool.true_or, Bool.or_true, if_true, Option.some.injEq, Bool.false_eq_true, if_false, Nat.add_zero,
          bv_sub_ofNat, Nat.add_mul, Nat.one_mul]
        rw [Nat.add_comm s.objSize]
        congr 1
        cases a.freeIndex <;> rfl
      | false =>
        have hd : doomed s i = false := by simp [doomed, hm, ha]
        simp only [Option.bind_some]
        rw [sweepLoop_spec n (i + 1) _ (by omega) (by omega)]
        simp only [List.range'_succ, List.countP_cons, List.find?_cons, List.any_cons, hm, hd, Bool.not_false,
          Bool.false_or, Option.some.injEq, Bool.false_eq_true, if_false, Nat.add_zero]
        congr 1
        cases a.freeIndex <;> rfl

/-- The number of slots a sweep of the span reclaims. -/
def doomedCount (s : Span) : Nat := ((List.range s.objCount).filter (doomed s)).length

/-- `sweep_span` in closed form. -/
theorem sweepSpan_eq {w : World} (h0 : 0 < w.span.base) (h1 : 0 < w.span.objCount) (h2 : w.span.objCount ≤ 1024)
    (h3 : w.span.objCount ≤ 8 * w.span.allocBits.length) (h4 : w.span.objCount ≤ 8 * w.span.markBits.length) :
    ∃ fate w', sweepSpan w = some (fate, w') ∧
      w'.span.base = w.span.base ∧ w'.span.stop = w.span.stop ∧ w'.span.objCount = w.span.objCount ∧
      w'.span.objSize = w.span.objSize ∧ w'.mem = w.mem ∧
      w'.span.allocBits = w.span.markBits ∧ w'.span.markBits = gcbitsNew w.span.objCount ∧
      w'.span.allocCount = (slots w.span.markBits w.span.objCount).length ∧
      w'.span.freeIndex = ((List.range w.span.objCount).find? (fun j => !isSet w.span.markBits j)).getD 0 ∧
      w'.span.needzero = (if (List.range w.span.objCount).any (doomed w.span) then true else w.span.needzero) ∧
      w'.allocated = w.allocated - BitVec.ofNat 64 (doomedCount w.span * w.span.objSize) ∧
      fate = (if w'.span.allocCount = 0 then .toHeap else if w'.span.allocCount = w'.span.objCount then .full
        else .partialList) := by
  have hl := sweepLoop_spec (s := w.span) w.span.objCount 0 ⟨0, none, false, w.allocated⟩ (by omega) (by omega)
  rw [← List.range_eq_range'] at hl
  have hc : (List.range w.span.objCount).countP (isSet w.span.markBits) =
      (slots w.span.markBits w.span.objCount).length := List.countP_eq_length_filter
  have hd : (List.range w.span.objCount).countP (doomed w.span) = doomedCount w.span := List.countP_eq_length_filter
  simp only [Nat.zero_add, hc, hd, Bool.false_or] at hl
  rw [sweepSpan]
  simp only
  rw [if_neg (by omega), hl]
  simp only
  generalize hcc : (slots w.span.markBits w.span.objCount).length = c
  by_cases hz : c = 0
  · rw [if_pos hz]
    refine ⟨_, _, rfl, rfl, rfl, rfl, rfl, rfl, rfl, rfl, rfl, rfl, rfl, rfl, ?_⟩
    rw [if_pos hz]
  · rw [if_neg hz]
    by_cases hf : c = w.span.objCount
    · rw [if_pos hf]
      refine ⟨_, _, rfl, rfl, rfl, rfl, rfl, rfl, rfl, rfl, rfl, rfl, rfl, rfl, ?_⟩
      rw [if_neg hz, if_pos hf]
    · rw [if_neg hf]
      refine ⟨_, _, rfl, rfl, rfl, rfl, rfl, rfl, rfl, rfl, rfl, rfl, rfl, rfl, ?_⟩
      rw [if_neg hz, if_neg hf]

/-- The invariant of every history of a span. -/
structure Inv (strict : Bool) (a0 : BitVec 64) (s : St) : Prop where
  base : 0 < s.w.span.base
  count : 0 < s.w.span.objCount ∧ s.w.span.objCount ≤ 1024
  size : 0 < s.w.span.objSize
  room : s.w.span.base + s.w.span.objCount * s.w.span.objSize ≤ s.w.span.stop
  alen : s.w.span.objCount ≤ 8 * s.w.span.allocBits.length
  mlen : s.w.span.objCount ≤ 8 * s.w.span.markBits.length
  lnd : s.live.Nodup
  lmem : ∀ i, i ∈ s.live ↔ i < s.w.span.objCount ∧ isSet s.w.span.allocBits i = true
  mnd : s.marked.Nodup
  mmem : ∀ i, i ∈ s.marked ↔ i < s.w.span.objCount ∧ isSet s.w.span.markBits i = true
  cnt : s.w.span.allocCount = s.live.length
  cursor : ∀ i, i < s.w.span.freeIndex → i < s.w.span.objCount → isSet s.w.span.allocBits i = true
  cur2 : s.w.span.freeIndex ≤ s.w.span.objCount
  clean : s.w.span.needzero = false → ∀ i, i < s.w.span.objCount → isSet s.w.span.allocBits i = false →
    ∀ x, s.w.span.base + i * s.w.span.objSize ≤ x → x < s.w.span.base + i * s.w.span.objSize + s.w.span.objSize →
      s.w.mem x = 0#8
  sub : strict = true → ∀ i ∈ s.marked, i ∈ s.live
  bytes : strict = true → s.w.allocated = a0 + BitVec.ofNat 64 (s.live.length * s.w.span.objSize)

/-- Slots of a span do not overlap. -/
theorem slot_disj {b z i j : Nat} (h : i ≠ j) : Disj z (b + i * z) (b + j * z) := by
  unfold Disj
  rcases Nat.lt_or_gt_of_ne h with h | h
  · left
    have : (i + 1) * z ≤ j * z := Nat.mul_le_mul_right _ h
    rw [Nat.add_mul] at this; omega
  · right
    have : (j + 1) * z ≤ i * z := Nat.mul_le_mul_right _ h
    rw [Nat.add_mul] at this; omega

theorem slotOf_eq {s : Span} {i : Nat} (h : 0 < s.objSize) : slotOf s (s.base + i * s.objSize) = i := by
  unfold slotOf
  rw [Nat.add_sub_cancel_left, Nat.mul_div_cancel _ h]

theorem live_le {strict : Bool} {a0 : BitVec 64} {s : St} (hi : Inv strict a0 s) :
    s.live.length ≤ s.w.span.objCount := by
  have := len_le hi.lnd (l2 := List.range s.w.span.objCount) fun x hx => List.mem_range.mpr ((hi.lmem x).mp hx).1
  rwa [List.length_range] at this

theorem free_slot {strict : Bool} {a0 : BitVec 64} {s : St} (hi : Inv strict a0 s)
    (h : s.live.length < s.w.span.objCount) : ∃ i, i < s.w.span.objCount ∧ isSet s.w.span.allocBits i = false := by
  apply Classical.byContradiction
  intro hno
  have hall : ∀ i, i < s.w.span.objCount → i ∈ s.live := by
    intro i hlt
    rw [hi.lmem]
    refine ⟨hlt, ?_⟩
    cases hb : isSet s.w.span.allocBits i with
    | true => rfl
    | false => exact absurd ⟨i, hlt, hb⟩ hno
  have := len_le (List.nodup_range (n := s.w.span.objCount)) (l2 := s.live) fun x hx => hall x (List.mem_range.mp hx)
  rw [List.length_range] at this
  omega

/-- Allocation from a span that is not full. -/
theorem alloc_spec {strict : Bool} {a0 : BitVec 64} {s : St} (hi : Inv strict a0 s)
    (hlt : s.live.length < s.w.span.objCount) :
    ∃ i w', stdMalloc s.w = some (s.w.span.base + i * s.w.span.objSize, w') ∧
      i < s.w.span.objCount ∧ i ∉ s.live ∧ w'.span.base = s.w.span.base ∧ w'.span.objSize = s.w.span.objSize ∧
      (∀ x, s.w.span.base + i * s.w.span.objSize ≤ x →
        x < s.w.span.base + i * s.w.span.objSize + s.w.span.objSize → w'.mem x = 0#8) ∧
      (∀ x, ¬ (s.w.span.base + i * s.w.span.objSize ≤ x ∧
        x < s.w.span.base + i * s.w.span.objSize + s.w.span.objSize) → w'.mem x = s.w.mem x) ∧
      Inv strict a0 ⟨w', i :: s.live, s.marked⟩ := by
  obtain ⟨k, hk, hkf⟩ := free_slot hi hlt
  have hkc : s.w.span.freeIndex ≤ k := by
    apply Classical.byContradiction
    intro hn
    have := hi.cursor k (by omega) hk
    rw [this] at hkf; cases hkf
  have hc2 := hi.cur2
  have hal := hi.alen
  rcases scan_spec (bits := s.w.span.allocBits) (s.w.span.objCount - s.w.span.freeIndex) s.w.span.freeIndex
      (by omega) with ⟨i, hs, hi1, hi2, hf⟩ | ⟨_, hall⟩
  · obtain ⟨b', hb', hbl, hbs⟩ := set_eq (bits := s.w.span.allocBits) (i := i) (by omega)
    have hib : i < s.w.span.objCount := by omega
    have hcnt := hi.cnt
    have hnl : i ∉ s.live := by
      rw [hi.lmem]; rintro ⟨_, h⟩; rw [h] at hf; cases hf
    have hscan : ∀ j, j < i → isSet s.w.span.allocBits j = true := by
      intro j hj
      by_cases hjf : j < s.w.span.freeIndex
      · exact hi.cursor j hjf (by omega)
      · -- the scan passed over j
        have : ∀ (n a i : Nat), a + n ≤ 8 * s.w.span.allocBits.length →
            scan s.w.span.allocBits a n = some (some i) → ∀ j, a ≤ j → j < i → isSet s.w.span.allocBits j = true := by
          intro n
          induction n with
          | zero => intro a i _ h; cases h
          | succ n ih =>
            intro a i hle h j hj1 hj2
            rw [scan, test_eq (by omega)] at h
            cases hb : isSet s.w.span.allocBits a with
            | false => rw [hb] at h; cases h; omega
            | true =>
              rw [hb] at h
              by_cases he : j = a
              · rw [he]; exact hb
              · exact ih (a + 1) i (by omega) h j (by omega) hj2
        exact this _ _ _ (by omega) hs j (by omega) hj
    -- the memory after the allocation
    have key : ∀ (nz : Bool) (m' : Mem),
        (nz = false → ∀ j, j < s.w.span.objCount → isSet b' j = false →
          ∀ x, s.w.span.base + j * s.w.span.objSize ≤ x → x < s.w.span.base + j * s.w.span.objSize + s.w.span.objSize →
            m' x = 0#8) →
        Inv strict a0 ⟨⟨{ s.w.span with allocBits := b', freeIndex := i + 1, allocCount := s.w.span.allocCount + 1, needzero := nz }, m', s.w.allocated + BitVec.ofNat 64 s.w.span.objSize⟩, i :: s.live, s.marked⟩ := by
      intro nz m' hcl
      refine ⟨hi.base, hi.count, hi.size, hi.room, by simp only; omega, hi.mlen, ?_, ?_, hi.mnd, hi.mmem, ?_, ?_, ?_, hcl, ?_, ?_⟩
      · exact List.nodup_cons.mpr ⟨hnl, hi.lnd⟩
      · intro j
        simp only [List.mem_cons, hbs]
        by_cases hj : j = i
        · subst hj; simp [hib]
        · simp only [if_neg hj, hj, false_or]; exact hi.lmem j
      · simp only [List.length_cons]; omega
      · intro j hj1 hj2
        simp only [hbs]
        by_cases hj : j = i
        · rw [if_pos hj]
        · rw [if_neg hj]; exact hscan j (by simp only at hj1; omega)
      · simp only; omega
      · intro hst j hj
        exact List.mem_cons_of_mem _ (hi.sub hst j hj)
      · intro hst
        simp only [hi.bytes hst, List.length_cons, Nat.add_mul, Nat.one_mul, BitVec.ofNat_add, BitVec.add_assoc]
    rw [stdMalloc, if_neg (by omega), mcacheAlloc, hs]
    simp only [hb']
    cases hnz : s.w.span.needzero with
    | true =>
      simp only [if_true]
      refine ⟨i, _, rfl, hib, hnl, rfl, rfl, fun x h1 h2 => ?_, fun x hx => ?_, key _ _ ?_⟩
      · simp only [zero]; rw [if_pos ⟨h1, h2⟩]
      · simp only [zero]; rw [if_neg hx]
      · intro hz j hj hbj
        -- the span is full: no clear slot remains
        exfalso
        have hfull : s.w.span.allocCount + 1 = s.w.span.objCount := by
          by_cases hq : s.w.span.allocCount + 1 = s.w.span.objCount
          · exact hq
          · rw [if_neg hq] at hz; cases hz
        rw [hbs] at hbj
        by_cases hji : j = i
        · rw [if_pos hji] at hbj; cases hbj
        · rw [if_neg hji] at hbj
          have h1 : (j :: i :: s.live).Nodup := by
            refine List.nodup_cons.mpr ⟨?_, List.nodup_cons.mpr ⟨hnl, hi.lnd⟩⟩
            simp only [List.mem_cons, hji, false_or]
            rw [hi.lmem]; rintro ⟨_, h⟩; rw [h] at hbj; cases hbj
          have h2 := len_le h1 (l2 := List.range s.w.span.objCount) (by
            intro x hx
            rw [List.mem_range]
            rcases List.mem_cons.mp hx with rfl | hx
            · exact hj
            · rcases List.mem_cons.mp hx with rfl | hx
              · exact hib
              · exact ((hi.lmem x).mp hx).1)
          simp only [List.length_cons, List.length_range] at h2
          omega
    | false =>
      simp only [Bool.false_eq_true, if_false]
      have hzero := hi.clean hnz
      refine ⟨i, _, rfl, hib, hnl, rfl, rfl, fun x h1 h2 => hzero i hib hf x h1 h2, fun x _ => rfl, ?_⟩
      have := key false s.w.mem (by
        intro _ j hj hbj
        rw [hbs] at hbj
        by_cases hji : j = i
        · rw [if_pos hji] at hbj; cases hbj
        · rw [if_neg hji] at hbj; exact hzero j hj hbj)
      exact this
  · have := hall k hkc (by omega)
    rw [this] at hkf; cases hkf

theorem write_inv {strict : Bool} {a0 : BitVec 64} {s : St} (hi : Inv strict a0 s) {i a : Nat} {v : BitVec 8}
    (hl : i ∈ s.live) (h1 : s.w.span.base + i * s.w.span.objSize ≤ a)
    (h2 : a < s.w.span.base + i * s.w.span.objSize + s.w.span.objSize) :
    Inv strict a0 { s with w := { s.w with mem := fun x => if x = a then v else s.w.mem x } } := by
  refine ⟨hi.base, hi.count, hi.size, hi.room, hi.alen, hi.mlen, hi.lnd, hi.lmem, hi.mnd, hi.mmem, hi.cnt,
    hi.cursor, hi.cur2, ?_, hi.sub, hi.bytes⟩
  intro hz j hj hbj x hx1 hx2
  have hne : i ≠ j := by
    intro e; subst e
    have := ((hi.lmem i).mp hl).2
    simp only at hbj
    rw [this] at hbj; cases hbj
  have := slot_disj (b := s.w.span.base) (z := s.w.span.objSize) hne
  unfold Disj at this
  simp only at hx1 hx2 ⊢
  rw [if_neg (by omega)]
  exact hi.clean hz j hj hbj x hx1 hx2

theorem mark_inv {strict : Bool} {a0 : BitVec 64} {s : St} (hi : Inv strict a0 s) {i : Nat}
    (h : i < s.w.span.objCount) (hst : strict = true → i ∈ s.live) :
    ∃ w', mark s.w i = some w' ∧
      Inv strict a0 ⟨w', s.live, if i ∈ s.marked then s.marked else i :: s.marked⟩ := by
  have hml := hi.mlen
  obtain ⟨b', hb', hbl, hbs⟩ := set_eq (bits := s.w.span.markBits) (i := i) (by omega)
  refine ⟨{ s.w with span := { s.w.span with markBits := b' } }, by rw [mark, hb'], ?_⟩
  refine ⟨hi.base, hi.count, hi.size, hi.room, hi.alen, by simp only; omega, hi.lnd, hi.lmem, ?_, ?_, hi.cnt,
    hi.cursor, hi.cur2, hi.clean, ?_, hi.bytes⟩
  · simp only; split
    · exact hi.mnd
    · rename_i hn; exact List.nodup_cons.mpr ⟨hn, hi.mnd⟩
  · intro j
    have hj := hi.mmem j
    simp only [hbs]
    by_cases hji : j = i
    · subst hji
      simp only [if_true, h, and_self, iff_true]
      split
      · assumption
      · exact List.mem_cons_self
    · rw [if_neg hji, ← hj]
      split
      · exact Iff.rfl
      · simp [hji]
  · intro hs j hj
    simp only at hj
    split at hj
    · exact hi.sub hs j hj
    · rcases List.mem_cons.mp hj with rfl | hj
      · exact hst hs
      · exact hi.sub hs j hj

theorem find_first {p : Nat → Bool} : ∀ {n i k : Nat}, (List.range' i n).find? p = some k →
    i ≤ k ∧ k < i + n ∧ ∀ j, i ≤ j → j < k → p j = false
  | 0, i, k, h => by simp at h
  | n + 1, i, k, h => by
    rw [List.range'_succ, List.find?_cons] at h
    cases hp : p i with
    | true =>
      rw [hp] at h; cases h
      exact ⟨Nat.le_refl _, by omega, fun j _ _ => by omega⟩
    | false =>
      rw [hp] at h
      obtain ⟨h1, h2, h3⟩ := find_first h
      refine ⟨by omega, by omega, fun j hj1 hj2 => ?_⟩
      by_cases he : j = i
      · rw [he]; exact hp
      · exact h3 j (by omega) hj2

theorem length_filter_split {α : Type} (p q : α → Bool) (h : ∀ a, q a = true → p a = true) : ∀ (l : List α),
    (l.filter p).length = (l.filter q).length + (l.filter fun a => p a && !q a).length
  | [] => rfl
  | a :: l => by
    have ih := length_filter_split p q h l
    have ha := h a
    cases hp : p a <;> cases hq : q a
    · simp [List.filter_cons, hp, hq, ih]
    · rw [hp, hq] at ha; simp at ha
    · simp [List.filter_cons, hp, hq, ih]; omega
    · simp [List.filter_cons, hp, hq, ih]; omega

theorem sweep_inv {strict : Bool} {a0 : BitVec 64} {s : St} (hi : Inv strict a0 s) :
    ∃ fate w', sweepSpan s.w = some (fate, w') ∧ Inv strict a0 ⟨w', s.marked, []⟩ := by
  obtain ⟨fate, w', he, e1, e2, e3, e4, e5, e6, e7, e8, e9, e10, e11, _⟩ :=
    sweepSpan_eq hi.base hi.count.1 hi.count.2 hi.alen hi.mlen
  refine ⟨fate, w', he, ?_⟩
  rcases w' with ⟨⟨b', st', oc', os', ac', fi', ab', mb', nz'⟩, m', al'⟩
  simp only at e1 e2 e3 e4 e5 e6 e7 e8 e9 e10 e11
  subst e1 e2 e3 e4 e5 e6 e7 e8 e9 e10 e11
  have hml := hi.mlen
  refine ⟨hi.base, hi.count, hi.size, hi.room, hml, gcbits_length _, hi.mnd, hi.mmem, List.nodup_nil, ?_, ?_, ?_, ?_, ?_, ?_, ?_⟩
  · intro i; simp [gcbits_isSet]
  · simp only; rw [length_eq_slots hi.mnd hi.mmem]
  · intro i h1 h2
    simp only at h1 h2 ⊢
    cases hf : (List.range s.w.span.objCount).find? (fun j => !isSet s.w.span.markBits j) with
    | none => rw [hf] at h1; simp at h1
    | some k =>
      rw [hf] at h1
      rw [List.range_eq_range'] at hf
      have := (find_first hf).2.2 i (by omega) h1
      simpa using this
  · simp only
    cases hf : (List.range s.w.span.objCount).find? (fun j => !isSet s.w.span.markBits j) with
    | none => simp
    | some k =>
      rw [List.range_eq_range'] at hf
      have := (find_first hf).2.1
      simp only [Option.getD_some]; omega
  · intro hz i h1 h2 x hx1 hx2
    simp only at hz h1 h2 hx1 hx2 ⊢
    by_cases hd : (List.range s.w.span.objCount).any (doomed s.w.span) = true
    · rw [if_pos hd] at hz; cases hz
    · rw [if_neg hd] at hz
      refine hi.clean hz i h1 ?_ x hx1 hx2
      cases ha : isSet s.w.span.allocBits i with
      | false => rfl
      | true =>
        exfalso; apply hd
        rw [List.any_eq_true]
        exact ⟨i, List.mem_range.mpr h1, by simp [doomed, ha, h2]⟩
  · intro _ i hm; simp at hm
  · intro hst
    simp only
    rw [hi.bytes hst, length_eq_slots hi.lnd hi.lmem, length_eq_slots hi.mnd hi.mmem]
    have hsplit : (slots s.w.span.allocBits s.w.span.objCount).length =
        (slots s.w.span.markBits s.w.span.objCount).length + doomedCount s.w.span := by
      have hcongr : (List.range s.w.span.objCount).filter (isSet s.w.span.markBits) =
          (List.range s.w.span.objCount).filter (fun i => isSet s.w.span.allocBits i && isSet s.w.span.markBits i) := by
        apply List.filter_congr
        intro i hr
        cases hm : isSet s.w.span.markBits i with
        | false => simp
        | true =>
          have h1 := (hi.mmem i).mpr ⟨List.mem_range.mp hr, hm⟩
          have h2 := ((hi.lmem i).mp (hi.sub hst i h1)).2
          simp [h2]
      unfold slots doomedCount
      rw [hcongr, length_filter_split (isSet s.w.span.allocBits)
        (fun i => isSet s.w.span.allocBits i && isSet s.w.span.markBits i) (by intro a h; simp at h; exact h.1)]
      congr 2
      apply List.filter_congr
      intro i _
      unfold doomed
      cases isSet s.w.span.allocBits i <;> cases isSet s.w.span.markBits i <;> rfl
    rw [hsplit, Nat.add_mul, BitVec.ofNat_add, ← BitVec.add_assoc, BitVec.add_sub_cancel]

theorem fresh_inv {strict : Bool} {w : World} {base pages classSize : Nat} (h : Fresh w base pages classSize) :
    Inv strict w.allocated ⟨w, [], []⟩ := by
  obtain ⟨h1, h2, h3, h4, h5, h6⟩ := h
  rcases w with ⟨sp, m, al⟩
  simp only at h1 h4 h5 h6
  subst h1
  have hroom : base + (mspanNew base pages classSize).objCount * (mspanNew base pages classSize).objSize ≤
      base + pages * 8192 := by
    by_cases hc : classSize = 0
    · simp [mspanNew, hc]
    · simp only [mspanNew, if_neg hc]
      have := Nat.div_mul_le_self (pages * 8192) classSize
      omega
  have hsize : 0 < (mspanNew base pages classSize).objSize := by
    by_cases hc : classSize = 0
    · simp only [mspanNew, if_pos hc]; omega
    · simp only [mspanNew, if_neg hc]; omega
  refine ⟨h2, ⟨h5, h6⟩, hsize, hroom, gcbits_length _, gcbits_length _, List.nodup_nil, ?_, List.nodup_nil, ?_,
    rfl, ?_, Nat.zero_le _, ?_, ?_, ?_⟩
  · intro i; simp [mspanNew, gcbits_isSet]
  · intro i; simp [mspanNew, gcbits_isSet]
  · intro i hi; simp [mspanNew] at hi
  · intro _ i hi _ x hx1 hx2
    simp only at hx1 hx2 hi ⊢
    apply h4
    · have : (mspanNew base pages classSize).base = base := rfl
      omega
    · have hb : (mspanNew base pages classSize).base = base := rfl
      have : (i + 1) * (mspanNew base pages classSize).objSize ≤
          (mspanNew base pages classSize).objCount * (mspanNew base pages classSize).objSize :=
        Nat.mul_le_mul_right _ hi
      rw [Nat.add_mul, Nat.one_mul] at this
      omega
  · intro _ i hi; simp at hi
  · intro _; simp

theorem step_inv {strict : Bool} {a0 : BitVec 64} {s s' : St} {op : Op} (hi : Inv strict a0 s)
    (h : step strict s op = some s') : Inv strict a0 s' := by
  cases op with
  | alloc =>
    rw [step] at h
    by_cases hlt : s.live.length < s.w.span.objCount
    · obtain ⟨i, w', he, _, _, _, _, _, _, hinv⟩ := alloc_spec hi hlt
      rw [he] at h
      simp only [slotOf_eq hi.size] at h
      cases h
      exact hinv
    · have := live_le hi
      have hcnt := hi.cnt
      rw [stdMalloc, if_pos (by omega)] at h
      cases h
  | write a v =>
    rw [step] at h
    split at h
    · rename_i hw
      cases h
      obtain ⟨i, hl, h1, h2⟩ := hw
      exact write_inv hi hl h1 h2
    · cases h
  | mark i =>
    rw [step] at h
    split at h
    · rename_i hm
      obtain ⟨w', he, hinv⟩ := mark_inv hi hm.1 hm.2
      rw [he] at h
      cases h
      exact hinv
    · cases h
  | sweep =>
    rw [step] at h
    obtain ⟨fate, w', he, hinv⟩ := sweep_inv hi
    rw [he] at h
    cases h
    exact hinv

theorem run_inv {strict : Bool} {a0 : BitVec 64} {s s' : St} : ∀ {ops : List Op}, Inv strict a0 s →
    run strict s ops = some s' → Inv strict a0 s' := by
  intro ops
  induction ops generalizing s with
  | nil => intro hi h; cases h; exact hi
  | cons op ops ih =>
    intro hi h
    rw [run] at h
    cases hs : step strict s op with
    | none => rw [hs] at h; cases h
    | some s1 => rw [hs] at h; exact ih (step_inv hi hs) h

end Nature.Span
