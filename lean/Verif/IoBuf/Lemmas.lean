import Verif.IoBuf.Spec
import Verif.Vec.Alias
/-! Refinement of the buffer to a queue. -/
namespace Nature.IoBuf
open Nature Nature.Vec

theorem cov_load {m : Mem} {v : Vec} {xs : List Elem} {b : Option Nat} {c : Nat} (h : Shows m v xs) (hc : Covers v b c) :
    ∃ x, load m b c = some x := by
  obtain ⟨rfl, h1, h2⟩ := hc
  have hl := h.1
  have := h.2 (c - v.off) _ (List.getElem?_eq_getElem (by omega))
  rw [show v.off + (c - v.off) = c by omega] at this
  exact ⟨_, this⟩

/-- A change outside the visible cells of `v` does not change what it shows. -/
theorem frame {m m' : Mem} {v : Vec} {xs : List Elem} (h : Shows m v xs) (P : Option Nat → Nat → Prop)
    (hm : ∀ b j, ¬ P b j → load m' b j = load m b j) (hP : ∀ b c, Covers v b c → ¬ P b c) : Shows m' v xs :=
  h.congr fun j h1 h2 => hm _ _ (hP _ _ ⟨rfl, h1, h2⟩)

theorem shows_sub {m : Mem} {v : Vec} {xs : List Elem} (h : Shows m v xs) (a k : Nat) (hk : a + k ≤ v.len) :
    Shows m ⟨v.blk, v.off + a, k, k⟩ ((xs.drop a).take k) := by
  have hl := h.1
  refine ⟨by simp; omega, fun i x hx => ?_⟩
  have hi : i < k := by
    have := (List.getElem?_eq_some_iff.1 hx).1
    simp at this; omega
  rw [List.getElem?_take_of_lt hi, List.getElem?_drop] at hx
  have := h.2 _ _ hx
  rw [← Nat.add_assoc] at this
  exact this

theorem wf_sub {m : Mem} {v : Vec} (h : WF m v) (a k : Nat) (hk : a + k ≤ v.len) : WF m ⟨v.blk, v.off + a, k, k⟩ := by
  refine ⟨Nat.le_refl k, fun i hi => ?_⟩
  have hc := h.1
  obtain ⟨x, hx⟩ := h.2 (a + i) (by have : i < k := hi; omega)
  exact ⟨x, by rw [← Nat.add_assoc] at hx; exact hx⟩

theorem slice_ok (v : Vec) (a e : Nat) (h1 : a ≤ e) (h2 : e ≤ v.len) :
    slice v a e = .ok ⟨v.blk, v.off + a, e - a, e - a⟩ := by
  have h := (slice_spec v a e).1
  rw [if_neg (by omega)] at h
  rw [h (by omega)]
  congr 2 <;> omega

theorem reset_eq (b : Buf) : reset b = .ok ⟨⟨b.buf.blk, b.buf.off, 0, 0⟩, 0⟩ := by
  unfold reset
  have := slice_ok b.buf 0 0 (by omega) (by omega)
  simp only [Int.ofNat_zero, Nat.sub_self, Nat.add_zero] at this
  rw [this]; rfl

/-- The buffer in memory is the queue, the vectors are the lists, and none shares a cell with another. -/
structure R (w : World) (s : Abs) (t : Nat) : Prop where
  buf : ∃ dn, Shows w.mem w.buf.buf (dn ++ s.queue) ∧ dn.length = w.buf.offset
  wf : WF w.mem w.buf.buf
  bound : w.buf.buf.len ≤ t
  vlen : w.vecs.length = s.vecs.length
  vshow : ∀ (i : Nat) v xs, w.vecs[i]? = some v → s.vecs[i]? = some xs → Shows w.mem v xs
  disj : ∀ (i j : Nat) v u b c, i ≠ j → w.vecs[i]? = some v → w.vecs[j]? = some u → Covers v b c → ¬ Covers u b c
  bdisj : ∀ (i : Nat) v c, w.vecs[i]? = some v → Covers v w.buf.buf.blk c →
    ¬ (w.buf.buf.off ≤ c ∧ c < w.buf.buf.off + w.buf.buf.cap)

theorem R.look {w : World} {s : Abs} {t : Nat} (h : R w s t) (i : Nat) :
    (w.vecs[i]? = none ∧ s.vecs[i]? = none) ∨
    (∃ v xs, w.vecs[i]? = some v ∧ s.vecs[i]? = some xs ∧ Shows w.mem v xs) := by
  have := h.vlen
  by_cases hi : i < w.vecs.length
  · exact Or.inr ⟨_, _, List.getElem?_eq_getElem hi, List.getElem?_eq_getElem (by omega),
      h.vshow i _ _ (List.getElem?_eq_getElem hi) (List.getElem?_eq_getElem (by omega))⟩
  · exact Or.inl ⟨List.getElem?_eq_none (by omega), List.getElem?_eq_none (by omega)⟩

theorem R.mono {w : World} {s : Abs} {t t' : Nat} (h : R w s t) (ht : t ≤ t') : R w s t' :=
  ⟨h.buf, h.wf, Nat.le_trans h.bound ht, h.vlen, h.vshow, h.disj, h.bdisj⟩

theorem R.covers_lt {w : World} {s : Abs} {t : Nat} (h : R w s t) {i : Nat} {v : Vec} (hv : w.vecs[i]? = some v)
    {b : Option Nat} {c : Nat} (hc : Covers v b c) : b ≠ some w.mem.length := by
  rcases h.look i with ⟨e, _⟩ | ⟨v', xs, e, _, hs⟩
  · rw [hv] at e; cases e
  · rw [hv] at e; cases e
    obtain ⟨x, hx⟩ := cov_load hs hc
    rintro rfl
    have := load_lt hx; omega

/-- After a change of memory that no vector can see and that moves the buffer, at most, to a new block. -/
theorem R.rebuf {w : World} {s : Abs} {t t' : Nat} (h : R w s t) {m' : Mem} {v' : Vec} {off' : Nat} {q dn : List Elem}
    (hs : Shows m' v' (dn ++ q)) (hd : dn.length = off') (hw : WF m' v') (hb : v'.len ≤ t')
    (hkeep : (v' = { w.buf.buf with len := v'.len } ∧
        ∀ b j, ¬ (b = w.buf.buf.blk ∧ w.buf.buf.off ≤ j ∧ j < w.buf.buf.off + w.buf.buf.cap) → load m' b j = load w.mem b j) ∨
      (v'.blk = some w.mem.length ∧ ∀ b j, b ≠ some w.mem.length → load m' b j = load w.mem b j)) :
    R { w with mem := m', buf := ⟨v', off'⟩ } ⟨q, s.vecs⟩ t' := by
  refine ⟨⟨dn, hs, hd⟩, hw, hb, h.vlen, ?_, h.disj, ?_⟩
  · intro i v xs hv hx
    have hsv := h.vshow i v xs hv hx
    rcases hkeep with ⟨_, hm⟩ | ⟨_, hm⟩
    · refine frame hsv (fun b j => b = w.buf.buf.blk ∧ w.buf.buf.off ≤ j ∧ j < w.buf.buf.off + w.buf.buf.cap) hm ?_
      rintro b c hc ⟨rfl, hcc⟩
      exact h.bdisj i v c hv hc hcc
    · refine frame hsv (fun b _ => b = some w.mem.length) (fun b j hn => hm b j hn) ?_
      intro b c hc
      exact h.covers_lt hv hc
  · intro i v c hv hc
    show ¬ (v'.off ≤ c ∧ c < v'.off + v'.cap)
    have hc : Covers v v'.blk c := hc
    rcases hkeep with ⟨e, _⟩ | ⟨e, _⟩
    · rw [e] at hc ⊢
      exact h.bdisj i v c hv hc
    · rw [e] at hc
      exact absurd rfl (h.covers_lt hv hc)

theorem R.write {w : World} {s : Abs} {t : Nat} (h : R w s t) {v : Vec} {xs : List Elem} (hv : Shows w.mem v xs)
    (hb : t + xs.length + 1 < 2 ^ 31) :
    ∃ m' b', write w.mem w.buf v = .ok (m', b', xs.length) ∧
      R { w with mem := m', buf := b' } ⟨s.queue ++ xs, s.vecs⟩ (t + xs.length) := by
  obtain ⟨dn, hs, hd⟩ := h.buf
  have hl := hv.1
  obtain ⟨m', v', e, w', s', hk⟩ := append_spec (esz := 1) h.wf hs hv (by have := h.bound; omega)
  refine ⟨m', ⟨v', w.buf.offset⟩, ?_, ?_⟩
  · unfold IoBuf.write; rw [e, hl]; rfl
  · rw [List.append_assoc] at s'
    have hvl : v'.len = w.buf.buf.len + xs.length := by
      have h1 := s'.1; have h2 := hs.1
      simp only [List.length_append] at h1 h2; omega
    refine h.rebuf s' hd w' (by have := h.bound; omega) ?_
    rcases hk with ⟨hc, hv', _, hm⟩ | ⟨_, hbk, _, hm⟩
    · refine Or.inl ⟨by rw [hv'], fun b j hn => ?_⟩
      rw [hm, if_neg]
      rintro ⟨h1, h2, h3⟩
      exact hn ⟨h1, by omega, by omega⟩
    · exact Or.inr ⟨hbk, hm⟩

theorem R.writeByte {w : World} {s : Abs} {t : Nat} (h : R w s t) (x : Elem) :
    ∃ m' b' n, writeByte w.mem w.buf x = .ok (m', b', n) ∧
      R { w with mem := m', buf := b' } ⟨s.queue ++ [x], s.vecs⟩ (t + 1) := by
  obtain ⟨dn, hs, hd⟩ := h.buf
  obtain ⟨m', v', e, w', s', hk⟩ := push_spec (esz := 1) (x := x) h.wf hs
  refine ⟨m', ⟨v', w.buf.offset⟩, v'.len, ?_, ?_⟩
  · unfold IoBuf.writeByte; rw [e]; rfl
  · rw [List.append_assoc] at s'
    have hvl : v'.len = w.buf.buf.len + 1 := by
      have h1 := s'.1; have h2 := hs.1
      simp only [List.length_append, List.length_singleton] at h1 h2; omega
    refine h.rebuf s' hd w' (by have := h.bound; omega) ?_
    rcases hk with ⟨hc, hv', _, hm⟩ | ⟨_, hbk, _, hm⟩
    · refine Or.inl ⟨by rw [hv'], fun b j hn => ?_⟩
      rw [hm, if_neg]
      rintro ⟨h1, h2⟩
      exact hn ⟨h1, by omega, by omega⟩
    · exact Or.inr ⟨hbk, hm⟩

theorem R.empty {w : World} {s : Abs} {t : Nat} (h : R w s t) : IoBuf.empty w.buf = decide (s.queue = []) := by
  obtain ⟨dn, hs, hd⟩ := h.buf
  have h1 := hs.1
  rw [List.length_append] at h1
  unfold IoBuf.empty
  congr 1
  rw [← List.length_eq_zero_iff]
  apply propext; omega

theorem R.len {w : World} {s : Abs} {t : Nat} (h : R w s t) : IoBuf.len w.buf = s.queue.length := by
  obtain ⟨dn, hs, hd⟩ := h.buf
  have h1 := hs.1
  rw [List.length_append] at h1
  unfold IoBuf.len
  omega

/-- Replacing the buffer by a part of itself. -/
theorem R.shrink {w : World} {s : Abs} {t : Nat} (h : R w s t) (k off' : Nat) (q dn : List Elem) (hk : k ≤ w.buf.buf.len)
    (hs : Shows w.mem ⟨w.buf.buf.blk, w.buf.buf.off, k, k⟩ (dn ++ q)) (hd : dn.length = off') :
    R { w with buf := ⟨⟨w.buf.buf.blk, w.buf.buf.off, k, k⟩, off'⟩ } ⟨q, s.vecs⟩ t := by
  have hw := h.wf.1
  refine ⟨⟨dn, hs, hd⟩, wf_sub h.wf 0 k (by omega), Nat.le_trans hk h.bound, h.vlen, h.vshow, h.disj, ?_⟩
  intro i v c hv hc hcc
  have hcc : w.buf.buf.off ≤ c ∧ c < w.buf.buf.off + k := hcc
  exact h.bdisj i v c hv hc ⟨hcc.1, by omega⟩

theorem R.reset {w : World} {s : Abs} {t : Nat} (h : R w s t) :
    ∃ b', IoBuf.reset w.buf = .ok b' ∧ R { w with buf := b' } ⟨[], s.vecs⟩ t :=
  ⟨_, reset_eq w.buf, h.shrink 0 0 [] [] (by omega) ⟨rfl, by simp⟩ rfl⟩

/-- After a change of memory inside the visible cells of vector `i`. -/
theorem R.setVec {w : World} {s : Abs} {t : Nat} (h : R w s t) {i : Nat} {v : Vec} (hv : w.vecs[i]? = some v)
    {m' : Mem} {ys : List Elem} (hs : Shows m' v ys)
    (hm : ∀ b j, ¬ Covers v b j → load m' b j = load w.mem b j)
    (hsome : ∀ b j x, load w.mem b j = some x → ∃ y, load m' b j = some y) :
    R { w with mem := m' } ⟨s.queue, s.vecs.set i ys⟩ t := by
  obtain ⟨dn, hb, hd⟩ := h.buf
  refine ⟨⟨dn, ?_, hd⟩, h.wf.congr fun j x hx => hsome _ _ _ hx, h.bound, by simp [h.vlen], ?_, h.disj, h.bdisj⟩
  · refine frame hb (Covers v) hm ?_
    rintro b c ⟨rfl, h1, h2⟩ hc
    simp only at h1 h2
    exact h.bdisj i v c hv hc ⟨h1, by have := h.wf.1; omega⟩
  · intro j u xs hu hx
    show Shows m' u xs
    have hu : w.vecs[j]? = some u := hu
    have hx : (s.vecs.set i ys)[j]? = some xs := hx
    by_cases hij : i = j
    · subst hij
      rw [hv] at hu; cases hu
      have hil : i < s.vecs.length := by
        have := (List.getElem?_eq_some_iff.1 hv).1; have := h.vlen; omega
      rw [List.getElem?_set_self hil] at hx
      cases hx; exact hs
    · rw [List.getElem?_set_ne hij] at hx
      refine frame (h.vshow j u xs hu hx) (Covers v) hm ?_
      intro b c hc hc2
      exact h.disj i j v u b c hij hv hu hc2 hc

theorem R.read {w : World} {s : Abs} {t : Nat} (h : R w s t) {i : Nat} {v : Vec} {xs : List Elem}
    (hv : w.vecs[i]? = some v) (hx : s.vecs[i]? = some xs) (hq : s.queue ≠ []) :
    ∃ m' b', read w.mem w.buf v = .ok (m', b', some (min xs.length s.queue.length)) ∧
      R { w with mem := m', buf := b' } ⟨s.queue.drop (min xs.length s.queue.length),
        s.vecs.set i (s.queue.take (min xs.length s.queue.length) ++ xs.drop (min xs.length s.queue.length))⟩ t := by
  obtain ⟨dn, hb, hd⟩ := h.buf
  have hbl := hb.1
  rw [List.length_append] at hbl
  have hvs := h.vshow i v xs hv hx
  have hsl := slice_ok w.buf.buf w.buf.offset w.buf.buf.len (by omega) (by omega)
  have hss := shows_sub hb w.buf.offset (w.buf.buf.len - w.buf.offset) (by omega)
  rw [← hd, List.drop_left, List.take_of_length_le (by omega), hd] at hss
  obtain ⟨m', e, _, hs', hm⟩ := copy_spec hvs hss
  generalize hn : min xs.length s.queue.length = n at *
  refine ⟨m', ⟨w.buf.buf, w.buf.offset + n⟩, ?_, ?_⟩
  · unfold IoBuf.read
    rw [h.empty]
    simp only [hq, decide_false, Bool.false_eq_true, if_false]
    rw [hsl]
    simp only [Res.bind_ok]
    rw [e]; rfl
  · have h1 := R.setVec h hv hs' (by
      intro b j hc
      rw [hm, if_neg]
      rintro ⟨h1, h2, h3⟩
      exact hc ⟨h1.symm, h2, by have := hvs.1; omega⟩) (by
      intro b j x hx
      rw [hm]
      split
      · rename_i hc
        exact ⟨_, List.getElem?_eq_getElem (by omega)⟩
      · exact ⟨x, hx⟩)
    obtain ⟨dn', hb', hd'⟩ := h1.buf
    have he : dn' = dn := by
      have : Shows m' w.buf.buf (dn ++ s.queue) := by
        refine frame hb (Covers v) ?_ ?_
        · intro b j hc
          rw [hm, if_neg]
          rintro ⟨h1, h2, h3⟩
          exact hc ⟨h1.symm, h2, by have := hvs.1; omega⟩
        · rintro b c ⟨rfl, h1, h2⟩ hc
          exact h.bdisj i v c hv hc ⟨h1, by have := h.wf.1; omega⟩
      exact List.append_cancel_right (Shows.unique hb' this)
    subst he
    refine ⟨⟨dn' ++ s.queue.take n, ?_, ?_⟩, h1.wf, h1.bound, h1.vlen, h1.vshow, h1.disj, h1.bdisj⟩
    · rw [List.append_assoc, List.take_append_drop]; exact hb'
    · show (dn' ++ s.queue.take n).length = w.buf.offset + n
      rw [List.length_append, List.length_take, hd]; omega

theorem R.addVec {w : World} {s : Abs} {t : Nat} (h : R w s t) (m' : Mem) (v : Vec) (xs : List Elem) (hs : Shows m' v xs)
    (hm : ∀ b j, b ≠ some w.mem.length → load m' b j = load w.mem b j)
    (hd : ∀ (i : Nat) u b c, w.vecs[i]? = some u → Covers u b c → ¬ Covers v b c)
    (hb : ∀ c, Covers v w.buf.buf.blk c → ¬ (w.buf.buf.off ≤ c ∧ c < w.buf.buf.off + w.buf.buf.cap)) :
    R { w with mem := m', vecs := w.vecs ++ [v] } ⟨s.queue, s.vecs ++ [xs]⟩ t := by
  obtain ⟨dn, hbs, hdn⟩ := h.buf
  have hmm : ∀ b j x, load w.mem b j = some x → load m' b j = some x := by
    intro b j x hx
    rw [hm, hx]
    rintro rfl
    have := load_lt hx; omega
  have hsh : ∀ u ys, Shows w.mem u ys → Shows m' u ys := fun u ys hu => ⟨hu.1, fun i x hx => hmm _ _ _ (hu.2 i x hx)⟩
  have hlast : ∀ (i : Nat) u, (w.vecs ++ [v])[i]? = some u → w.vecs[i]? = some u ∨ (i = w.vecs.length ∧ u = v) := by
    intro i u hu
    by_cases hi : i < w.vecs.length
    · rw [List.getElem?_append_left hi] at hu; exact Or.inl hu
    · rw [List.getElem?_append_right (by omega)] at hu
      have : i - w.vecs.length = 0 := by
        have := (List.getElem?_eq_some_iff.1 hu).1
        simp at this; omega
      rw [this] at hu
      exact Or.inr ⟨by omega, by simpa using hu.symm⟩
  refine ⟨⟨dn, hsh _ _ hbs, hdn⟩, h.wf.congr fun j x hx => ⟨x, hmm _ _ _ hx⟩, h.bound, by simp [h.vlen], ?_, ?_, ?_⟩
  · intro i u ys hu hy
    rcases hlast i u hu with h1 | ⟨h1, h2⟩
    · have : i < w.vecs.length := (List.getElem?_eq_some_iff.1 h1).1
      have hy : (s.vecs ++ [xs])[i]? = some ys := hy
      rw [List.getElem?_append_left (by have := h.vlen; omega)] at hy
      exact hsh _ _ (h.vshow i u ys h1 hy)
    · subst h2
      have hy : (s.vecs ++ [xs])[i]? = some ys := hy
      rw [h1, h.vlen] at hy
      simp at hy
      subst hy; exact hs
  · intro i j u u' b c hij hu hu' hc hc'
    rcases hlast i u hu with h1 | ⟨h1, h2⟩ <;> rcases hlast j u' hu' with h3 | ⟨h3, h4⟩
    · exact h.disj i j u u' b c hij h1 h3 hc hc'
    · subst h4; exact hd i u b c h1 hc hc'
    · subst h2; exact hd j u' b c h3 hc' hc
    · omega
  · intro i u c hu hc
    rcases hlast i u hu with h1 | ⟨h1, h2⟩
    · exact h.bdisj i u c h1 hc
    · subst h2; exact hb c hc

theorem load_new_block (m : Mem) (xs : List Elem) (b : Option Nat) (j : Nat) :
    load (m ++ [xs]) b j = if b = some m.length then xs[j]? else load m b j := by
  cases b with
  | none => simp [load]
  | some b =>
    unfold load
    simp only [Option.bind_some, Option.some.injEq]
    by_cases hb : b = m.length
    · subst hb; simp
    · rw [if_neg hb]
      by_cases h2 : b < m.length
      · rw [List.getElem?_append_left h2]
      · rw [List.getElem?_eq_none (by simp; omega), List.getElem?_eq_none (by omega)]

theorem step_refines {w : World} {s : Abs} {t : Nat} (h : R w s t) (op : Op) (ht : t + wrote s op + 1 < 2 ^ 31) :
    ∃ w', step w op = .ok (w', (specStep s op).2) ∧ R w' (specStep s op).1 (t + wrote s op) := by
  cases op with
  | vec xs =>
    refine ⟨_, rfl, ?_⟩
    refine h.addVec (w.mem ++ [xs]) ⟨some w.mem.length, 0, xs.length, xs.length⟩ xs ⟨rfl, ?_⟩ ?_ ?_ ?_
    · intro i x hx
      rw [load_new_block, if_pos rfl, Nat.zero_add, hx]
    · intro b j hb
      rw [load_new_block, if_neg hb]
    · rintro i u b c hu hc ⟨h1, _⟩
      exact h.covers_lt hu hc h1.symm
    · rintro c ⟨h1, h2, h3⟩ ⟨h4, h5⟩
      obtain ⟨x, hx⟩ := h.wf.2 (c - w.buf.buf.off) (by omega)
      rw [← h1] at hx
      have := load_lt hx; omega
  | set i j x =>
    simp only [step, specStep, wrote]
    rcases h.look i with ⟨e1, e2⟩ | ⟨v, xs, e1, e2, hs⟩
    · rw [e1, e2]; exact ⟨w, rfl, h⟩
    · rw [e1, e2]
      by_cases hj : j < xs.length
      · obtain ⟨m', e, _, hm⟩ := assign_spec hs (i := j) (by rw [← hs.1]; exact hj) x
        have := (shows_write hs hm).1 ⟨rfl, by omega, by have := hs.1; omega⟩
        rw [show v.off + j - v.off = j by omega] at this
        simp only [e, if_pos hj]
        refine ⟨_, rfl, h.setVec e1 this ?_ ?_⟩
        · intro b c hc
          rw [hm, if_neg]
          rintro ⟨rfl, rfl⟩
          exact hc ⟨rfl, by omega, by have := hs.1; omega⟩
        · intro b c y hy
          rw [hm]; split
          · exact ⟨_, rfl⟩
          · exact ⟨y, hy⟩
      · have : assign w.mem v j x = .throws := assign_throws (by rw [← hs.1]; omega) x
        simp only [this, if_neg hj]
        exact ⟨w, rfl, h⟩
  | write i =>
    simp only [step, specStep, wrote] at ht ⊢
    rcases h.look i with ⟨e1, e2⟩ | ⟨v, xs, e1, e2, hs⟩
    · rw [e1, e2]; exact ⟨w, rfl, by simpa using h⟩
    · rw [e2] at ht
      rw [e1, e2]
      obtain ⟨m', b', e, hr⟩ := h.write hs (by simpa using ht)
      simp only [e, Res.bind_ok]
      exact ⟨_, rfl, hr⟩
  | writeByte x =>
    simp only [step, specStep, wrote]
    obtain ⟨m', b', n, e, hr⟩ := h.writeByte x
    rw [e]
    exact ⟨_, rfl, hr⟩
  | read i =>
    simp only [step, specStep, wrote]
    rcases h.look i with ⟨e1, e2⟩ | ⟨v, xs, e1, e2, hs⟩
    · rw [e1, e2]; exact ⟨w, rfl, h⟩
    · rw [e1, e2]
      by_cases hq : s.queue = []
      · obtain ⟨b', e, hr⟩ := h.reset
        have hrd : IoBuf.read w.mem w.buf v = .ok (w.mem, b', if v.len = 0 then some 0 else none) := by
          unfold IoBuf.read
          rw [h.empty]
          simp only [hq, decide_true, if_true]
          rw [e]; rfl
        simp only [hrd, Res.bind_ok, if_pos hq]
        refine ⟨{ w with buf := b' }, ?_, ?_⟩
        · congr 2
          by_cases hx : xs = []
          · rw [if_pos (by rw [← hs.1, hx]; rfl), if_pos hx]; rfl
          · rw [if_neg (by rw [← hs.1]; intro hc; exact hx (List.length_eq_zero_iff.1 hc)), if_neg hx]
        · have : s = ⟨[], s.vecs⟩ := by cases s; simp only at hq; rw [hq]
          rw [this]; exact hr
      · obtain ⟨m', b', e, hr⟩ := h.read e1 e2 hq
        simp only [e, Res.bind_ok, if_neg hq]
        exact ⟨_, rfl, hr⟩
  | readAll =>
    simp only [step, specStep, wrote, IoBuf.readAll]
    rw [h.empty]
    by_cases hq : s.queue = []
    · simp only [hq, decide_true, if_true, Res.bind_ok, loadN]
      refine ⟨_, rfl, ?_⟩
      have h2 := h.addVec w.mem ⟨none, 0, 0, 0⟩ [] ⟨rfl, by simp⟩ (fun _ _ _ => rfl)
        (by rintro i u b c _ _ ⟨_, h1, h2⟩; simp at h2) (by rintro c ⟨_, h1, h2⟩; simp at h2)
      rw [hq] at h2
      exact h2
    · simp only [hq, decide_false, Bool.false_eq_true, if_false]
      obtain ⟨dn, hb, hd⟩ := h.buf
      have hbl := hb.1
      rw [List.length_append] at hbl
      have hsl := slice_ok w.buf.buf w.buf.offset w.buf.buf.len (by omega) (by omega)
      have hss := shows_sub hb w.buf.offset (w.buf.buf.len - w.buf.offset) (by omega)
      rw [← hd, List.drop_left, List.take_of_length_le (by omega), hd] at hss
      have hld := (shows_loadN _ _ _).1 hss
      simp only at hld
      obtain ⟨b', e, hr⟩ := h.reset
      rw [hsl]
      simp only [Res.bind_ok]
      rw [e]
      simp only [Res.bind_ok, hld]
      refine ⟨_, rfl, ?_⟩
      have hbe : b' = ⟨⟨w.buf.buf.blk, w.buf.buf.off, 0, 0⟩, 0⟩ := by rw [reset_eq] at e; cases e; rfl
      refine hr.addVec w.mem _ s.queue hss (fun _ _ _ => rfl) ?_ ?_
      · rintro i u b c hu hc ⟨h1, h2, h3⟩
        simp only at h1 h2 h3
        subst h1
        exact h.bdisj i u c hu hc ⟨by omega, by have := h.wf.1; omega⟩
      · rintro c _ ⟨h2, h3⟩
        simp only [hbe] at h2 h3
        omega
  | truncate n =>
    simp only [step, specStep, wrote, IoBuf.truncate]
    by_cases h0 : n = 0
    · obtain ⟨b', e, hr⟩ := h.reset
      subst h0
      simp only [if_true, e]
      rw [if_pos (by omega)]
      exact ⟨_, rfl, by simpa using hr⟩
    · rw [if_neg h0, h.len]
      by_cases hr : n < 0 ∨ n > s.queue.length
      · rw [if_pos hr, if_neg (by omega)]
        exact ⟨w, rfl, h⟩
      · rw [if_neg hr, if_pos (by omega)]
        obtain ⟨dn, hb, hd⟩ := h.buf
        have hbl := hb.1
        rw [List.length_append] at hbl
        obtain ⟨k, rfl⟩ : ∃ k : Nat, n = k := ⟨n.toNat, by omega⟩
        have hsl := slice_ok w.buf.buf 0 (w.buf.offset + k) (by omega) (by omega)
        simp only [Int.natCast_zero, Int.natCast_add, Nat.add_zero, Nat.sub_zero] at hsl
        have hss := shows_sub hb 0 (w.buf.offset + k) (by omega)
        simp only [List.drop_zero, Nat.add_zero] at hss
        rw [← hd, List.take_length_add_append] at hss
        rw [hsl]
        simp only [Res.bind_ok]
        refine ⟨_, rfl, ?_⟩
        have := h.shrink (w.buf.offset + k) w.buf.offset (s.queue.take k) dn (by omega) (by rw [← hd]; exact hss) hd
        simpa using this
  | len => exact ⟨w, by simp only [step, specStep]; rw [h.len], h⟩
  | empty => exact ⟨w, by simp only [step, specStep]; rw [h.empty], h⟩

theorem run_refines {w : World} {s : Abs} {t : Nat} (h : R w s t) (ops : List Op) (ht : t + totalWritten s ops + 1 < 2 ^ 31) :
    ∃ w' t', run w ops = .ok (w', (specRun s ops).2) ∧ R w' (specRun s ops).1 t' := by
  induction ops generalizing w s t with
  | nil => exact ⟨w, t, rfl, h⟩
  | cons op ops ih =>
    simp only [totalWritten] at ht
    obtain ⟨w1, e1, h1⟩ := step_refines h op (by omega)
    obtain ⟨w2, t2, e2, h2⟩ := ih h1 (by omega)
    refine ⟨w2, t2, ?_, h2⟩
    rw [run, e1]
    simp only [Res.bind_ok]
    rw [e2]; rfl

end Nature.IoBuf
