import Verif.Vec.Lemmas
/-! Histories of vector operations: the run of the runtime functions and its refinement proof. -/
namespace Nature.Vec
open Nature

/-- Runtime state of a program holding several vectors: the memory and the headers. -/
structure World where
  mem : Mem
  vecs : List Vec

/-- A runtime error is observed as an exception and leaves the state alone; abort and undefined behaviour end the run. -/
def observe {α} (w : World) (r : Res α) (k : α → World × Out) : Res (World × Out) :=
  match r with
  | .ok a => .ok (k a)
  | .throws => .ok (w, .throws)
  | .abort => .abort
  | .ub => .ub

/-- One operation of the program, executed by the runtime functions of vec.c (element size `esz`; `junk` are the
bytes after the zero local in `rt_vec_new`, vec.c:96-101). -/
def implStep (esz : Nat) (junk : List (BitVec 8)) (w : World) : Op → Res (World × Out)
  | .new len x => observe w (new w.mem esz junk len x) fun r => (⟨r.1, w.vecs ++ [r.2]⟩, .unit)
  | .cap c => observe w (capNew w.mem esz c) fun r => (⟨r.1, w.vecs ++ [r.2]⟩, .unit)
  | .push i x =>
    match w.vecs[i]? with
    | some v => observe w (push w.mem esz v x) fun r => (⟨r.1, w.vecs.set i r.2⟩, .unit)
    | none => .ok (w, .badVar)
  | .get i idx =>
    match w.vecs[i]? with
    | some v => observe w (access w.mem v idx) fun x => (w, .elem x)
    | none => .ok (w, .badVar)
  | .set i idx x =>
    match w.vecs[i]? with
    | some v => observe w (assign w.mem v idx x) fun m => (⟨m, w.vecs⟩, .unit)
    | none => .ok (w, .badVar)
  | .append i j =>
    match w.vecs[i]?, w.vecs[j]? with
    | some v, some u =>
      observe w (if i = j then appendSelf w.mem esz v else append w.mem esz v u) fun r => (⟨r.1, w.vecs.set i r.2⟩, .unit)
    | _, _ => .ok (w, .badVar)
  | .concat i j =>
    match w.vecs[i]?, w.vecs[j]? with
    | some v, some u => observe w (concat w.mem esz v u) fun r => (⟨r.1, w.vecs ++ [r.2]⟩, .unit)
    | _, _ => .ok (w, .badVar)
  | .copy i j =>
    match w.vecs[i]?, w.vecs[j]? with
    | some v, some u => observe w (copy w.mem v u) fun r => (⟨r.1, w.vecs⟩, .nat r.2)
    | _, _ => .ok (w, .badVar)
  | .len i =>
    match w.vecs[i]? with
    | some v => .ok (w, .nat v.len)
    | none => .ok (w, .badVar)

/-- Run a program, collecting what it observes. -/
def implRun (esz : Nat) (junk : List (BitVec 8)) : World → List Op → Res (List Out)
  | _, [] => .ok []
  | w, op :: ops => (implStep esz junk w op).bind fun r => (implRun esz junk r.1 ops).bind fun os => .ok (r.2 :: os)

/-- The program respects the limits of the runtime: a fill value has `esz` bytes, at most 8,
and an appended vector stays below 2^31 - 1 elements (the capacity argument of `rti_vec_grow` is an `int`). -/
def Fits (esz : Nat) : List (List Elem) → List Op → Prop
  | _, [] => True
  | s, op :: ops =>
    (match op with
      | .new _ x => x.length = esz ∧ esz ≤ 8
      | .append i j => ∀ xs ys, s[i]? = some xs → s[j]? = some ys → xs.length + ys.length + 1 < 2 ^ 31
      | _ => True) ∧ Fits esz (specStep s op).1 ops

/-- The headers show the abstract lists and own pairwise distinct blocks. -/
structure Inv (w : World) (s : List (List Elem)) : Prop where
  len : w.vecs.length = s.length
  shows : ∀ (i : Nat) v, w.vecs[i]? = some v → ∃ xs, s[i]? = some xs ∧ WF w.mem v ∧ Shows w.mem v xs
  bound : ∀ (i : Nat) v b, w.vecs[i]? = some v → v.blk = some b → b < w.mem.length
  distinct : ∀ (i j : Nat) v u, w.vecs[i]? = some v → w.vecs[j]? = some u → i ≠ j → v.blk = u.blk → v.blk = none

theorem Inv.at {w : World} {s : List (List Elem)} (h : Inv w s) {i : Nat} {v : Vec} {xs : List Elem}
    (hv : w.vecs[i]? = some v) (hs : s[i]? = some xs) : WF w.mem v ∧ Shows w.mem v xs := by
  obtain ⟨ys, h1, h2⟩ := h.shows i v hv
  rw [hs] at h1; cases h1; exact h2

theorem shows_none {m m' : Mem} {v : Vec} {xs : List Elem} (hw : WF m v) (hs : Shows m v xs) (hb : v.blk = none) :
    WF m' v ∧ Shows m' v xs := by
  have hc : v.cap = 0 := by
    rcases Nat.eq_zero_or_pos v.cap with h | h
    · exact h
    · obtain ⟨x, hx⟩ := hw.2 0 h
      rw [hb] at hx; cases hx
  have hl : v.len = 0 := by have := hw.1; omega
  refine ⟨⟨by omega, by rw [hc]; intro i hi; omega⟩, ⟨hs.1, ?_⟩⟩
  have : xs = [] := List.length_eq_zero_iff.1 (by rw [hs.1, hl])
  subst this
  simp

theorem Inv.frame {w : World} {s : List (List Elem)} (h : Inv w s) {m' : Mem} {i : Nat} {v : Vec} {xs : List Elem}
    (hv : w.vecs[i]? = some v) (hs : s[i]? = some xs)
    (hf : ∀ b j, v.blk = some b → load m' (some b) j = load w.mem (some b) j) : WF m' v ∧ Shows m' v xs := by
  obtain ⟨hw, hsh⟩ := h.at hv hs
  cases hb : v.blk with
  | none => exact shows_none hw hsh hb
  | some b =>
    refine ⟨hw.congr fun j x hx => ⟨x, ?_⟩, hsh.congr fun j _ _ => ?_⟩
    · rw [hb] at hx ⊢; rw [hf b j hb]; exact hx
    · rw [hb, hf b j hb]

theorem Inv.update {w : World} {s : List (List Elem)} (h : Inv w s) {i : Nat} {v v' : Vec} {m' : Mem} {xs' : List Elem}
    (hv : w.vecs[i]? = some v) (hw : WF m' v') (hsh : Shows m' v' xs')
    (hb : (v'.blk = v.blk ∧ w.mem.length ≤ m'.length) ∨ (v'.blk = some w.mem.length ∧ w.mem.length < m'.length))
    (hf : ∀ b j, b ≠ v.blk → b ≠ some w.mem.length → load m' b j = load w.mem b j) :
    Inv ⟨m', w.vecs.set i v'⟩ (s.set i xs') := by
  have hi := (List.getElem?_eq_some_iff.1 hv).1
  have hml : w.mem.length ≤ m'.length := by rcases hb with h | h <;> omega
  refine ⟨by simp [h.len], ?_, ?_, ?_⟩
  · intro k u hu
    simp only at hu
    by_cases hk : k = i
    · subst hk
      rw [List.getElem?_set_self hi] at hu; cases hu
      exact ⟨xs', by rw [List.getElem?_set_self (by rw [← h.len]; exact hi)], hw, hsh⟩
    · rw [List.getElem?_set_ne (by omega)] at hu
      obtain ⟨ys, hy, _⟩ := h.shows k u hu
      refine ⟨ys, by rw [List.getElem?_set_ne (by omega)]; exact hy, h.frame hu hy ?_⟩
      intro b j hbu
      apply hf
      · intro hbv
        have := h.distinct k i u v hu hv hk (by rw [hbu, hbv])
        rw [this] at hbu; cases hbu
      · have := h.bound k u b hu hbu
        simp; omega
  · intro k u b hu hbu
    simp only at hu ⊢
    by_cases hk : k = i
    · subst hk
      rw [List.getElem?_set_self hi] at hu; cases hu
      rcases hb with hb | hb
      · rw [hb.1] at hbu; have := h.bound k v b hv hbu; omega
      · rw [hb.1] at hbu; cases hbu; exact hb.2
    · rw [List.getElem?_set_ne (by omega)] at hu
      have := h.bound k u b hu hbu; omega
  · intro k l u t hu ht hkl e
    simp only at hu ht
    have key : ∀ (k : Nat) (u : Vec), k ≠ i → w.vecs[k]? = some u → v'.blk = u.blk → u.blk = none := by
      intro k u hk hu e
      rcases hb with hb | hb
      · exact h.distinct k i u v hu hv hk (by rw [← e, hb.1])
      · have := h.bound k u w.mem.length hu (by rw [← e, hb.1])
        omega
    by_cases hk : k = i
    · have hl : l ≠ i := by omega
      subst hk
      rw [List.getElem?_set_self hi] at hu; cases hu
      rw [List.getElem?_set_ne (by omega)] at ht
      rw [e]; exact key l t hl ht e
    · rw [List.getElem?_set_ne (by omega)] at hu
      by_cases hl : l = i
      · subst hl
        rw [List.getElem?_set_self hi] at ht; cases ht
        exact key k u hk hu e.symm
      · rw [List.getElem?_set_ne (by omega)] at ht
        exact h.distinct k l u t hu ht hkl e

theorem getElem?_snoc {α} (l : List α) (x : α) (k : Nat) :
    (l ++ [x])[k]? = if k < l.length then l[k]? else if k = l.length then some x else none := by
  by_cases h : k < l.length
  · rw [if_pos h, List.getElem?_append_left h]
  · rw [if_neg h, List.getElem?_append_right (by omega)]
    by_cases h2 : k = l.length
    · subst h2; simp
    · rw [if_neg h2, List.getElem?_eq_none (by simp; omega)]

theorem Inv.add {w : World} {s : List (List Elem)} (h : Inv w s) {v' : Vec} {m' : Mem} {xs' : List Elem}
    (hw : WF m' v') (hsh : Shows m' v' xs') (hml : w.mem.length ≤ m'.length)
    (hb : v'.blk = none ∨ (v'.blk = some w.mem.length ∧ w.mem.length < m'.length))
    (hf : ∀ b j, b ≠ some w.mem.length → load m' b j = load w.mem b j) :
    Inv ⟨m', w.vecs ++ [v']⟩ (s ++ [xs']) := by
  refine ⟨by simp [h.len], ?_, ?_, ?_⟩
  · intro k u hu
    simp only [getElem?_snoc] at hu ⊢
    by_cases hk : k < w.vecs.length
    · rw [if_pos hk] at hu
      obtain ⟨ys, hy, _⟩ := h.shows k u hu
      refine ⟨ys, by rw [if_pos (by rw [← h.len]; exact hk)]; exact hy, h.frame hu hy ?_⟩
      intro b j hbu
      have := h.bound k u b hu hbu
      apply hf; simp; omega
    · rw [if_neg hk] at hu
      split at hu
      · cases hu
        exact ⟨xs', by rw [if_neg (by rw [← h.len]; exact hk), if_pos (by rw [← h.len]; assumption)], hw, hsh⟩
      · cases hu
  · intro k u b hu hbu
    simp only [getElem?_snoc] at hu ⊢
    by_cases hk : k < w.vecs.length
    · rw [if_pos hk] at hu
      have := h.bound k u b hu hbu; omega
    · rw [if_neg hk] at hu
      split at hu
      · cases hu
        rcases hb with hb | hb
        · rw [hb] at hbu; cases hbu
        · rw [hb.1] at hbu; cases hbu; exact hb.2
      · cases hu
  · intro k l u t hu ht hkl e
    simp only [getElem?_snoc] at hu ht
    have key : ∀ (k : Nat) (u : Vec), w.vecs[k]? = some u → v'.blk = u.blk → u.blk = none := by
      intro k u hu e
      rcases hb with hb | hb
      · rw [← e, hb]
      · have := h.bound k u w.mem.length hu (by rw [← e, hb.1])
        omega
    by_cases hk : k < w.vecs.length
    · rw [if_pos hk] at hu
      by_cases hl : l < w.vecs.length
      · rw [if_pos hl] at ht
        exact h.distinct k l u t hu ht hkl e
      · rw [if_neg hl] at ht
        split at ht
        · cases ht; exact key k u hu e.symm
        · cases ht
    · rw [if_neg hk] at hu
      split at hu
      · cases hu
        by_cases hl : l < w.vecs.length
        · rw [if_pos hl] at ht
          rw [e]; exact key l t ht e
        · rw [if_neg hl] at ht
          split at ht
          · omega
          · cases ht
      · cases hu

theorem Inv.lookup {w : World} {s : List (List Elem)} (h : Inv w s) (i : Nat) :
    (w.vecs[i]? = none ∧ s[i]? = none) ∨ ∃ v xs, w.vecs[i]? = some v ∧ s[i]? = some xs ∧ WF w.mem v ∧ Shows w.mem v xs := by
  cases hv : w.vecs[i]? with
  | none =>
    left
    rw [List.getElem?_eq_none_iff] at hv
    exact ⟨rfl, List.getElem?_eq_none (by rw [← h.len]; exact hv)⟩
  | some v =>
    obtain ⟨xs, h1, h2, h3⟩ := h.shows i v hv
    exact Or.inr ⟨v, xs, rfl, h1, h2, h3⟩

/-- One step: the runtime observes what the specification says and the invariant is kept. -/
theorem step_refines {esz : Nat} {junk : List (BitVec 8)} {w : World} {s : List (List Elem)} (h : Inv w s)
    (op : Op) (hf : Fits esz s [op]) :
    ∃ w', implStep esz junk w op = .ok (w', (specStep s op).2) ∧ Inv w' (specStep s op).1 := by
  have hf := hf.1
  cases op with
  | new len x =>
    obtain ⟨h1, h2⟩ := new_spec w.mem esz junk len x hf.1 hf.2
    by_cases hl : len < 0
    · refine ⟨w, ?_, ?_⟩ <;> simp only [implStep, specStep, h1 hl, if_pos hl, observe]
      exact h
    · obtain ⟨m', v', e, hw, hs, hb, hm, hfr⟩ := h2 (by omega)
      refine ⟨_, by simp only [implStep, specStep, e, if_neg hl, observe]; rfl, ?_⟩
      simp only [specStep, if_neg hl]
      exact h.add hw hs (by omega) (Or.inr ⟨hb, by omega⟩) hfr
  | cap c =>
    obtain ⟨h1, h2⟩ := capNew_spec w.mem esz c
    by_cases hl : c < 0
    · refine ⟨w, ?_, ?_⟩ <;> simp only [implStep, specStep, h1 hl, if_pos hl, observe]
      exact h
    · obtain ⟨m', v', e, hw, hs, _, _, hb, hfr⟩ := h2 (by omega)
      refine ⟨_, by simp only [implStep, specStep, e, if_neg hl, observe]; rfl, ?_⟩
      simp only [specStep, if_neg hl]
      refine h.add hw hs ?_ ?_ hfr
      · rcases hb with ⟨_, hb⟩ | hb
        · rw [hb]; exact Nat.le_refl _
        · omega
      · rcases hb with ⟨hb, _⟩ | hb
        · exact Or.inl hb
        · exact Or.inr ⟨hb.1, by omega⟩
  | push i x =>
    rcases h.lookup i with ⟨hv, hs⟩ | ⟨v, xs, hv, hs, hw, hsh⟩
    · exact ⟨w, by simp only [implStep, specStep, hv, hs], by simp only [specStep, hs]; exact h⟩
    · obtain ⟨m', v', e, hw', hs', hfr⟩ := push_spec (esz := esz) (x := x) hw hsh
      refine ⟨_, by simp only [implStep, specStep, hv, hs, e, observe]; rfl, ?_⟩
      simp only [specStep, hs]
      refine h.update hv hw' hs' ?_ ?_
      · rcases hfr with ⟨_, hb, hm, _⟩ | ⟨_, hb, hm, _⟩
        · left; rw [hb]; exact ⟨rfl, by omega⟩
        · right; exact ⟨hb, by omega⟩
      · intro b j h1 h2
        rcases hfr with ⟨_, _, _, hm⟩ | ⟨_, _, _, hm⟩
        · rw [hm, if_neg (by simp [h1])]
        · exact hm b j h2
  | get i idx =>
    rcases h.lookup i with ⟨hv, hs⟩ | ⟨v, xs, hv, hs, hw, hsh⟩
    · exact ⟨w, by simp only [implStep, specStep, hv, hs], by simp only [specStep, hs]; exact h⟩
    · refine ⟨w, ?_, by simp only [specStep, hs]; exact h⟩
      simp only [implStep, specStep, hv, hs, access_spec hsh]
      cases xs[idx]? <;> rfl
  | set i idx x =>
    rcases h.lookup i with ⟨hv, hs⟩ | ⟨v, xs, hv, hs, hw, hsh⟩
    · exact ⟨w, by simp only [implStep, specStep, hv, hs], by simp only [specStep, hs]; exact h⟩
    · by_cases hi : idx < xs.length
      · obtain ⟨m', e, l, hm⟩ := assign_spec hsh (i := idx) (by rw [← hsh.1]; exact hi) x
        refine ⟨_, by simp only [implStep, specStep, hv, hs, e, observe, if_pos hi]; rfl, ?_⟩
        simp only [specStep, hs, if_pos hi]
        have hcov : Covers v v.blk (v.off + idx) := ⟨rfl, by omega, by have := hsh.1; omega⟩
        have h' := (shows_write hsh hm).1 hcov
        rw [show v.off + idx - v.off = idx by omega] at h'
        have := h.update (v' := v) (m' := m') hv (wf_write hw hm) h' (Or.inl ⟨rfl, by omega⟩) (fun b j h1 _ => by
          rw [hm, if_neg (by simp [h1])])
        have hset : w.vecs.set i v = w.vecs := by
          apply List.ext_getElem?
          intro k
          by_cases hk : k = i
          · subst hk; rw [List.getElem?_set_self ((List.getElem?_eq_some_iff.1 hv).1), hv]
          · rw [List.getElem?_set_ne (by omega)]
        rw [hset] at this
        exact this
      · refine ⟨w, ?_, by simp only [specStep, hs, if_neg hi]; exact h⟩
        simp only [implStep, specStep, hv, hs, if_neg hi, assign_throws (m := w.mem) (v := v) (i := idx) (by have := hsh.1; omega) x, observe]
  | append i j =>
    rcases h.lookup i with ⟨hv, hs⟩ | ⟨v, xs, hv, hs, hw, hsh⟩
    · exact ⟨w, by simp only [implStep, specStep, hv, hs], by simp only [specStep, hs]; exact h⟩
    · rcases h.lookup j with ⟨hv2, hs2⟩ | ⟨u, ys, hv2, hs2, hw2, hsh2⟩
      · exact ⟨w, by simp only [implStep, specStep, hv, hs, hv2, hs2], by simp only [specStep, hs, hs2]; exact h⟩
      · have h31 : xs.length + ys.length + 1 < 2 ^ 31 := hf xs ys hs hs2
        rw [hsh.1, hsh2.1] at h31
        by_cases hij : i = j
        · subst hij
          rw [hv] at hv2; cases hv2
          rw [hs] at hs2; cases hs2
          obtain ⟨m', v', e, hw', hs', hfr⟩ := appendSelf_spec (esz := esz) hw hsh h31
          refine ⟨_, by simp only [implStep, specStep, hv, hs, e, observe, if_pos]; rfl, ?_⟩
          simp only [specStep, hs]
          refine h.update hv hw' hs' ?_ ?_
          · rcases hfr with ⟨hb, hm, _⟩ | ⟨hb, hm, _⟩
            · left; rw [hb]; exact ⟨rfl, by omega⟩
            · right; exact ⟨hb, by omega⟩
          · intro b j h1 h2
            rcases hfr with ⟨_, _, hm⟩ | ⟨_, _, hm⟩
            · rw [hm, if_neg (by simp [h1])]
            · exact hm b j h2
        · obtain ⟨m', v', e, hw', hs', hfr⟩ := append_spec (esz := esz) hw hsh hsh2 h31
          refine ⟨_, by simp only [implStep, specStep, hv, hs, hv2, hs2, e, observe, if_neg hij]; rfl, ?_⟩
          simp only [specStep, hs, hs2]
          refine h.update hv hw' hs' ?_ ?_
          · rcases hfr with ⟨_, hb, hm, _⟩ | ⟨_, hb, hm, _⟩
            · left; rw [hb]; exact ⟨rfl, by omega⟩
            · right; exact ⟨hb, by omega⟩
          · intro b j h1 h2
            rcases hfr with ⟨_, _, _, hm⟩ | ⟨_, _, _, hm⟩
            · rw [hm, if_neg (by simp [h1])]
            · exact hm b j h2
  | concat i j =>
    rcases h.lookup i with ⟨hv, hs⟩ | ⟨v, xs, hv, hs, hw, hsh⟩
    · exact ⟨w, by simp only [implStep, specStep, hv, hs], by simp only [specStep, hs]; exact h⟩
    · rcases h.lookup j with ⟨hv2, hs2⟩ | ⟨u, ys, hv2, hs2, hw2, hsh2⟩
      · exact ⟨w, by simp only [implStep, specStep, hv, hs, hv2, hs2], by simp only [specStep, hs, hs2]; exact h⟩
      · obtain ⟨m', v', e, hw', hs', hb, hm1, hm2, hfr⟩ := concat_spec (esz := esz) hsh hsh2
        refine ⟨_, by simp only [implStep, specStep, hv, hs, hv2, hs2, e, observe]; rfl, ?_⟩
        simp only [specStep, hs, hs2]
        refine h.add hw' hs' (by omega) ?_ hfr
        rcases hb with hb | hb
        · exact Or.inl hb.1
        · exact Or.inr ⟨hb.1, by omega⟩
  | copy i j =>
    rcases h.lookup i with ⟨hv, hs⟩ | ⟨v, xs, hv, hs, hw, hsh⟩
    · exact ⟨w, by simp only [implStep, specStep, hv, hs], by simp only [specStep, hs]; exact h⟩
    · rcases h.lookup j with ⟨hv2, hs2⟩ | ⟨u, ys, hv2, hs2, hw2, hsh2⟩
      · exact ⟨w, by simp only [implStep, specStep, hv, hs, hv2, hs2], by simp only [specStep, hs, hs2]; exact h⟩
      · obtain ⟨m', e, l, hs', hm⟩ := copy_spec hsh hsh2
        refine ⟨_, by simp only [implStep, specStep, hv, hs, hv2, hs2, e, observe]; rfl, ?_⟩
        simp only [specStep, hs, hs2]
        have hwf : WF m' v := hw.congr fun j y hy => by
          rw [hm]; split
          · exact ⟨_, List.getElem?_eq_getElem (by omega)⟩
          · exact ⟨y, hy⟩
        have := h.update (v' := v) (m' := m') hv hwf hs' (Or.inl ⟨rfl, by omega⟩) (fun b j h1 _ => by
          rw [hm, if_neg (by simp [h1])])
        have hset : w.vecs.set i v = w.vecs := by
          apply List.ext_getElem?
          intro k
          by_cases hk : k = i
          · subst hk; rw [List.getElem?_set_self ((List.getElem?_eq_some_iff.1 hv).1), hv]
          · rw [List.getElem?_set_ne (by omega)]
        rw [hset] at this
        exact this
  | len i =>
    rcases h.lookup i with ⟨hv, hs⟩ | ⟨v, xs, hv, hs, hw, hsh⟩
    · exact ⟨w, by simp only [implStep, specStep, hv, hs], by simp only [specStep, hs]; exact h⟩
    · exact ⟨w, by simp only [implStep, specStep, hv, hs, hsh.1], by simp only [specStep, hs]; exact h⟩

theorem run_refines {esz : Nat} {junk : List (BitVec 8)} (ops : List Op) {w : World} {s : List (List Elem)}
    (h : Inv w s) (hf : Fits esz s ops) : implRun esz junk w ops = .ok (specRun s ops) := by
  induction ops generalizing w s with
  | nil => rfl
  | cons op ops ih =>
    obtain ⟨w', e, h'⟩ := step_refines (junk := junk) h op ⟨hf.1, trivial⟩
    unfold implRun specRun
    rw [e, Res.bind_ok, ih h' hf.2, Res.bind_ok]

end Nature.Vec
