import Verif.Vec.Alias
/-!
C14 (vectors behave like lists) and C15 (slices).
`Shows m v xs` (Spec.lean) says what a program reading vector `v` sees; `specRun` is plain list code.
-/
namespace Nature.Vec
open Nature

/-- C14, histories: every program over any number of vectors observes exactly what the same program over mathematical
lists observes (values read, lengths, copy counts, out-of-range errors), and never aborts.  Missing: `new` with a fill
value of more than 8 bytes (see the counterexample below; vectors of such elements built by `cap` and `push` are
covered) and append totals of 2^31 - 1 elements or more (`Fits`). -/
theorem C14_history_partial (esz : Nat) (junk : List (BitVec 8)) (ops : List Op) (hf : Fits esz [] ops) :
    implRun esz junk ⟨[], []⟩ ops = .ok (specRun [] ops) :=
  run_refines ops ⟨rfl, by simp, by simp, by simp⟩ hf

/-- A program with growth, an out-of-range read, a self append, a concat and a copy meets the hypotheses. -/
def demo : List Op :=
  [.new 2 [7], .push 0 [8], .get 0 2, .get 0 3, .cap 0, .append 1 0, .append 1 1, .set 1 0 [9], .concat 0 1, .copy 0 2, .new (-1) [0], .len 2]
example : Fits 1 [] demo := by simp [Fits, demo, specStep]
example : specRun [] demo = [.unit, .unit, .elem [8], .throws, .unit, .unit, .unit, .unit, .unit, .nat 3, .throws, .nat 9] := by decide
example : implRun 1 [] ⟨[], []⟩ demo = .ok (specRun [] demo) := C14_history_partial 1 [] demo (by simp [Fits, demo, specStep])

/-- C14, push, for every element size: the list grows by the element at its end and the count stays within capacity. -/
theorem C14_push (m : Mem) (esz : Nat) (v : Vec) (x : Elem) (xs : List Elem) (hw : WF m v) (hs : Shows m v xs) :
    ∃ m' v', push m esz v x = .ok (m', v') ∧ Shows m' v' (xs ++ [x]) ∧ WF m' v' := by
  obtain ⟨m', v', e, h1, h2, _⟩ := push_spec (esz := esz) (x := x) hw hs
  exact ⟨m', v', e, h2, h1⟩

/-- C14, indexed read, for every element size. -/
theorem C14_get (m : Mem) (v : Vec) (xs : List Elem) (hs : Shows m v xs) (i : Nat) :
    access m v i = if h : i < xs.length then .ok xs[i] else .throws := by
  rw [access_spec hs]
  split
  · rename_i h
    obtain ⟨h1, h2⟩ := List.getElem?_eq_some_iff.1 h
    rw [dif_pos h1, h2]
  · rename_i h
    rw [dif_neg]; rw [List.getElem?_eq_none_iff] at h; omega

/-- C14, indexed write, for every element size: in range it replaces that element, out of range it throws
(so that no new memory is produced). -/
theorem C14_set (m : Mem) (v : Vec) (xs : List Elem) (hw : WF m v) (hs : Shows m v xs) (i : Nat) (x : Elem) :
    (i < xs.length → ∃ m', assign m v i x = .ok m' ∧ Shows m' v (xs.set i x) ∧ WF m' v) ∧
    (xs.length ≤ i → assign m v i x = .throws) := by
  constructor
  · intro hi
    obtain ⟨m', e, _, hm⟩ := assign_spec hs (i := i) (by rw [← hs.1]; exact hi) x
    have := (shows_write hs hm).1 ⟨rfl, by omega, by have := hs.1; omega⟩
    rw [show v.off + i - v.off = i by omega] at this
    exact ⟨m', e, this, wf_write hw hm⟩
  · intro hi; exact assign_throws (by rw [← hs.1]; exact hi) x

/-- C14, append of another vector (possibly sharing storage), for every element size. -/
theorem C14_append (m : Mem) (esz : Nat) (v u : Vec) (xs ys : List Elem) (hw : WF m v) (hs : Shows m v xs) (hu : Shows m u ys)
    (h31 : xs.length + ys.length + 1 < 2 ^ 31) :
    ∃ m' v', append m esz v u = .ok (m', v') ∧ Shows m' v' (xs ++ ys) ∧ WF m' v' := by
  obtain ⟨m', v', e, h1, h2, _⟩ := append_spec (esz := esz) hw hs hu (by rw [← hs.1, ← hu.1]; exact h31)
  exact ⟨m', v', e, h2, h1⟩

/-- C14, append of a vector to itself. -/
theorem C14_append_self (m : Mem) (esz : Nat) (v : Vec) (xs : List Elem) (hw : WF m v) (hs : Shows m v xs)
    (h31 : xs.length + xs.length + 1 < 2 ^ 31) :
    ∃ m' v', appendSelf m esz v = .ok (m', v') ∧ Shows m' v' (xs ++ xs) ∧ WF m' v' := by
  obtain ⟨m', v', e, h1, h2, _⟩ := appendSelf_spec (esz := esz) hw hs (by rw [← hs.1]; exact h31)
  exact ⟨m', v', e, h2, h1⟩

/-- C14, concat: a new vector with both contents; neither operand changes. -/
theorem C14_concat (m : Mem) (esz : Nat) (v u : Vec) (xs ys : List Elem) (hs : Shows m v xs) (hu : Shows m u ys) :
    ∃ m' r, concat m esz v u = .ok (m', r) ∧ Shows m' r (xs ++ ys) ∧ WF m' r ∧
      ∀ w zs, Shows m w zs → Shows m' w zs := by
  obtain ⟨m', r, e, h1, h2, _, _, _, hf⟩ := concat_spec (esz := esz) hs hu
  refine ⟨m', r, e, h2, h1, fun w zs hz => ⟨hz.1, fun i x hx => ?_⟩⟩
  have := hz.2 i x hx
  rw [hf, this]
  intro hb
  rw [hb] at this
  have := load_lt this; omega

/-- C14, copy: the first `min` elements of the destination are overwritten, the count is reported. -/
theorem C14_copy (m : Mem) (v u : Vec) (xs ys : List Elem) (hs : Shows m v xs) (hu : Shows m u ys) :
    ∃ m', copy m v u = .ok (m', min xs.length ys.length) ∧
      Shows m' v (ys.take (min xs.length ys.length) ++ xs.drop (min xs.length ys.length)) := by
  obtain ⟨m', e, _, h, _⟩ := copy_spec hs hu
  exact ⟨m', e, h⟩

/-- The hypotheses are met, e.g. by a one-element vector of 3-byte elements with spare room. -/
example : WF [[[1, 2, 3], [0, 0, 0]]] ⟨some 0, 0, 1, 2⟩ ∧ Shows [[[1, 2, 3], [0, 0, 0]]] ⟨some 0, 0, 1, 2⟩ [[1, 2, 3]] := by
  refine ⟨⟨by decide, ?_⟩, rfl, ?_⟩
  · intro i hi
    have : i = 0 ∨ i = 1 := by simp at hi; omega
    rcases this with rfl | rfl <;> exact ⟨_, rfl⟩
  · intro i x hx
    have := (List.getElem?_eq_some_iff.1 hx).1
    have h0 : i = 0 := by simpa using this
    subst h0; exact hx

/-- C14 fails for elements above 8 bytes: `rt_vec_new` compares the fill value with an 8-byte zero local using the full
element size (vec.c:96-101), so when the bytes that happen to follow the local equal the tail of the value, a
value that is not zero is taken for zero and the fill is skipped. -/
theorem C14_new_large_element_counterexample :
    ∃ (esz : Nat) (junk : List (BitVec 8)) (x : Elem), x.length = esz ∧
      ∃ m' v', new [] esz junk 1 x = .ok (m', v') ∧ ¬ Shows m' v' [x] := by
  refine ⟨16, [5, 0, 0, 0, 0, 0, 0, 0], [0, 0, 0, 0, 0, 0, 0, 0, 5, 0, 0, 0, 0, 0, 0, 0], rfl, _, _, rfl, ?_⟩
  intro h
  have := h.2 0 _ rfl
  revert this
  decide

/-- C15: `slice(start, end)` succeeds exactly for `0 ≤ start ≤ end ≤ len` (an `end` of -1 means `len`), and then shows
exactly the elements `start .. end-1`; it has no spare capacity. -/
theorem C15_slice (m : Mem) (v : Vec) (xs : List Elem) (hw : WF m v) (hs : Shows m v xs) (start fin : Int) :
    let e : Int := if fin = -1 then xs.length else fin
    (0 ≤ start ∧ start ≤ e ∧ e ≤ xs.length →
      ∃ u, slice v start fin = .ok u ∧ Shows m u ((xs.drop start.toNat).take (e - start).toNat) ∧ WF m u ∧ u.cap = u.len) ∧
    (¬ (0 ≤ start ∧ start ≤ e ∧ e ≤ xs.length) → slice v start fin = .throws) := by
  obtain ⟨h1, h2⟩ := slice_spec v start fin
  simp only at h1 h2 ⊢
  rw [hs.1]
  refine ⟨fun hc => ⟨_, h1 hc, ?_, ?_, rfl⟩, h2⟩
  · generalize (if fin = -1 then (v.len : Int) else fin) = e at hc
    have hl := hs.1
    refine ⟨by simp; omega, fun i x hx => ?_⟩
    have hi := (List.getElem?_eq_some_iff.1 hx).1
    rw [List.getElem?_take_of_lt (by simp at hi; omega), List.getElem?_drop] at hx
    have := hs.2 _ x hx
    rw [← this]
    show load m v.blk (v.off + start.toNat + i) = _
    congr 1; omega
  · generalize (if fin = -1 then (v.len : Int) else fin) = e at hc
    refine ⟨Nat.le_refl _, fun i hi => ?_⟩
    simp only at hi
    obtain ⟨x, hx⟩ := hw.2 (start.toNat + i) (by have := hw.1; omega)
    refine ⟨x, ?_⟩
    rw [← hx]
    show load m v.blk (v.off + start.toNat + i) = _
    congr 1; omega

example : slice ⟨some 0, 0, 5, 8⟩ 1 3 = .ok ⟨some 0, 1, 2, 2⟩ ∧ slice ⟨some 0, 0, 5, 8⟩ 2 (-1) = .ok ⟨some 0, 2, 3, 3⟩ ∧
    slice ⟨some 0, 0, 5, 8⟩ 3 2 = .throws ∧ slice ⟨some 0, 0, 5, 8⟩ 0 6 = .throws := by decide

/-- C15, writes: a write through a slice at index `i` is seen by the parent at index `start + i` and changes nothing else
of the parent. -/
theorem C15_slice_write (m : Mem) (v u : Vec) (xs : List Elem) (hw : WF m v) (hs : Shows m v xs) (start fin : Int)
    (hu : slice v start fin = .ok u) (i : Nat) (x : Elem) (hi : i < u.len) :
    ∃ m', assign m u i x = .ok m' ∧ Shows m' v (xs.set (start.toNat + i) x) := by
  obtain ⟨h1, h2⟩ := slice_spec v start fin
  by_cases hc : 0 ≤ start ∧ start ≤ (if fin = -1 then (v.len : Int) else fin) ∧ (if fin = -1 then (v.len : Int) else fin) ≤ v.len
  · have hsl := (C15_slice m v xs hw hs start fin).1 (by rw [hs.1]; exact hc)
    obtain ⟨u', e', hsu, _, _⟩ := hsl
    rw [hu] at e'; cases e'
    rw [h1 hc] at hu
    obtain ⟨m', e, _, hm⟩ := assign_spec hsu hi x
    refine ⟨m', e, ?_⟩
    generalize (if fin = -1 then (v.len : Int) else fin) = ee at hc hu
    cases hu
    simp only at hi hm
    have := (shows_write hs hm).1 ⟨rfl, by omega, by omega⟩
    rw [show v.off + start.toNat + i - v.off = start.toNat + i by omega] at this
    exact this
  · rw [h2 hc] at hu; cases hu

/-- C15, writes and any other vector `w`: it changes exactly at the shared cell, if it covers it, and nowhere else. -/
theorem C15_write_frame (m m' : Mem) (u w : Vec) (i : Nat) (x : Elem) (us ys : List Elem) (hu : Shows m u us) (hy : Shows m w ys)
    (hi : i < u.len) (he : assign m u i x = .ok m') :
    (Covers w u.blk (u.off + i) → Shows m' w (ys.set (u.off + i - w.off) x)) ∧ (¬ Covers w u.blk (u.off + i) → Shows m' w ys) := by
  obtain ⟨m1, e, _, hm⟩ := assign_spec hu hi x
  rw [he] at e; cases e
  exact shows_write hy hm

/-- C15, push on a fresh slice: no vector that existed before changes. -/
theorem C15_slice_push (m : Mem) (esz : Nat) (v u : Vec) (xs us : List Elem) (hw : WF m v) (hs : Shows m v xs) (start fin : Int)
    (hsl : slice v start fin = .ok u) (hus : Shows m u us) (x : Elem) :
    ∃ m' u', push m esz u x = .ok (m', u') ∧ Shows m' u' (us ++ [x]) ∧
      ∀ w ys, Shows m w ys → Shows m' w ys := by
  have hc : u.cap = u.len ∧ WF m u := by
    obtain ⟨h1, h2⟩ := C15_slice m v xs hw hs start fin
    by_cases hc : 0 ≤ start ∧ start ≤ (if fin = -1 then (xs.length : Int) else fin) ∧ (if fin = -1 then (xs.length : Int) else fin) ≤ xs.length
    · obtain ⟨u', e, _, h3, h4⟩ := h1 hc
      rw [hsl] at e; cases e; exact ⟨h4, h3⟩
    · have := h2 hc
      rw [hsl] at this; cases this
  obtain ⟨m', u', e, h1, h2, h3⟩ := push_spec (esz := esz) (x := x) hc.2 hus
  refine ⟨m', u', e, h2, fun w ys hy => ?_⟩
  rcases h3 with ⟨h, _⟩ | ⟨_, _, _, hm⟩
  · omega
  · refine ⟨hy.1, fun i z hz => ?_⟩
    have := hy.2 i z hz
    rw [hm, this]
    intro hb
    rw [hb] at this
    have := load_lt this; omega

/-- C15, histories: in every state a program with any number of vectors, slices, slices of slices, pushes, appends, copies
and writes can reach, a push changes what no other vector shows. -/
theorem C15_push_isolated (esz : Nat) (junk : List (BitVec 8)) (w : World) (hr : Reach esz junk w)
    (i : Nat) (v : Vec) (hv : w.vecs[i]? = some v) (x : Elem) (xs : List Elem) (hx : Shows w.mem v xs) :
    ∃ m' v', push w.mem esz v x = .ok (m', v') ∧ Shows m' v' (xs ++ [x]) ∧
      ∀ j u ys, j ≠ i → w.vecs[j]? = some u → Shows w.mem u ys → Shows m' u ys := by
  have h := hr.inv
  obtain ⟨m', v', e, h1, h2, h3⟩ := push_spec (esz := esz) (x := x) (h.wf i v hv) hx
  refine ⟨m', v', e, h2, fun j u ys hj hu hy => ?_⟩
  rcases h3 with ⟨hlt, _, _, hm⟩ | ⟨_, _, _, hm⟩
  · refine h.others (k := 1) (zs := [x]) hv hu (Ne.symm hj) hlt hy fun b c => ?_
    rw [hm]
    by_cases hc : b = v.blk ∧ c = v.off + v.len
    · rw [if_pos hc, if_pos ⟨hc.1, by omega, by omega⟩, hc.2]; simp
    · rw [if_neg hc, if_neg]
      rintro ⟨a, b, c⟩
      exact hc ⟨a, by omega⟩
  · refine ⟨hy.1, fun k z hz => ?_⟩
    have := hy.2 k z hz
    rw [hm, this]
    intro hb
    rw [hb] at this
    have := load_lt this; omega

/-- C15, histories: the same for append. -/
theorem C15_append_isolated (esz : Nat) (junk : List (BitVec 8)) (w : World) (hr : Reach esz junk w)
    (i : Nat) (v s : Vec) (hv : w.vecs[i]? = some v) (xs zs : List Elem) (hx : Shows w.mem v xs)
    (hz : Shows w.mem s zs) (h31 : xs.length + zs.length + 1 < 2 ^ 31) :
    ∃ m' v', append w.mem esz v s = .ok (m', v') ∧ Shows m' v' (xs ++ zs) ∧
      ∀ j u ys, j ≠ i → w.vecs[j]? = some u → Shows w.mem u ys → Shows m' u ys := by
  have h := hr.inv
  obtain ⟨m', v', e, h1, h2, h3⟩ := append_spec (esz := esz) (h.wf i v hv) hx hz (by rw [← hx.1, ← hz.1]; exact h31)
  refine ⟨m', v', e, h2, fun j u ys hj hu hy => ?_⟩
  rcases h3 with ⟨hlt, _, _, hm⟩ | ⟨_, _, _, hm⟩
  · exact h.others hv hu (Ne.symm hj) hlt hy hm
  · refine ⟨hy.1, fun k z hz => ?_⟩
    have := hy.2 k z hz
    rw [hm, this]
    intro hb
    rw [hb] at this
    have := load_lt this; omega

/-- A reachable state with a vector with spare room, a slice of it and a slice of the slice. -/
example : ∃ w, Reach 1 [] w ∧ w.vecs = [⟨some 1, 0, 3, 4⟩, ⟨some 1, 1, 2, 2⟩, ⟨some 1, 2, 1, 1⟩] :=
  ⟨_, .step (op := .slice 1 1 2) (o := .unit) (.step (op := .slice 0 1 (-1)) (o := .unit) (.step (op := .base (.push 0 [8])) (o := .unit)
    (.step (op := .base (.new 2 [7])) (o := .unit) .init ⟨rfl, by decide⟩ rfl) trivial rfl) trivial rfl) trivial rfl, rfl⟩

end Nature.Vec
