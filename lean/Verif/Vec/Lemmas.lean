import Verif.Vec.Spec
/-! Memory lemmas and exact effects (with frames) of every vector operation. -/
namespace Nature.Vec
open Nature

theorem load_none (m : Mem) (i : Nat) : load m none i = none := rfl

theorem load_lt {m : Mem} {b i : Nat} {x : Elem} (h : load m (some b) i = some x) : b < m.length := by
  unfold load at h
  simp only [Option.bind_some] at h
  cases hb : m[b]? with
  | none => rw [hb] at h; simp at h
  | some c => exact (List.getElem?_eq_some_iff.1 hb).1

theorem load_ge {m : Mem} {b i : Nat} (h : m.length ≤ b) : load m (some b) i = none := by
  cases e : load m (some b) i with
  | none => rfl
  | some x => have := load_lt e; omega

theorem store_spec {m : Mem} {b : Option Nat} {i : Nat} {y x : Elem} (h : load m b i = some y) :
    ∃ m', store m b i x = some m' ∧ m'.length = m.length ∧
      ∀ b' j, load m' b' j = if b' = b ∧ j = i then some x else load m b' j := by
  cases b with
  | none => cases h
  | some b =>
    unfold load at h
    simp only [Option.bind_some] at h
    cases hb : m[b]? with
    | none => rw [hb] at h; simp at h
    | some c =>
      rw [hb] at h
      simp only [Option.bind_some] at h
      have hi := (List.getElem?_eq_some_iff.1 h).1
      have hbl := (List.getElem?_eq_some_iff.1 hb).1
      refine ⟨m.set b (c.set i x), ?_, by simp, ?_⟩
      · unfold store; simp [hb, hi]
      · intro b' j
        unfold load
        cases b' with
        | none => simp
        | some b' =>
          simp only [Option.bind_some, Option.some.injEq]
          by_cases hbb : b' = b
          · subst hbb
            rw [List.getElem?_set_self hbl, hb]
            simp only [Option.bind_some, true_and]
            by_cases hj : j = i
            · subst hj; rw [List.getElem?_set_self hi]; simp
            · rw [List.getElem?_set_ne (by omega), if_neg hj]
          · rw [List.getElem?_set_ne (by omega), if_neg (by simp [hbb])]

theorem storeN_spec (xs : List Elem) (m : Mem) (b : Option Nat) (off : Nat)
    (h : ∀ i, i < xs.length → ∃ y, load m b (off + i) = some y) :
    ∃ m', storeN m b off xs = some m' ∧ m'.length = m.length ∧
      ∀ b' j, load m' b' j = if b' = b ∧ off ≤ j ∧ j < off + xs.length then xs[j - off]? else load m b' j := by
  induction xs generalizing m off with
  | nil => exact ⟨m, rfl, rfl, fun b' j => by rw [if_neg (by simp)]⟩
  | cons x xs ih =>
    obtain ⟨y, hy⟩ := h 0 (by simp)
    obtain ⟨m1, e1, l1, s1⟩ := store_spec (x := x) hy
    have h1 : ∀ i, i < xs.length → ∃ y, load m1 b (off + 1 + i) = some y := by
      intro i hi
      obtain ⟨z, hz⟩ := h (i + 1) (by simp; omega)
      refine ⟨z, ?_⟩
      rw [s1, if_neg (by omega), show off + 1 + i = off + (i + 1) by omega]; exact hz
    obtain ⟨m2, e2, l2, s2⟩ := ih m1 (off + 1) h1
    refine ⟨m2, ?_, by omega, ?_⟩
    · unfold storeN
      simp only [Nat.add_zero] at e1
      rw [e1]; exact e2
    · intro b' j
      rw [s2, s1]
      simp only [List.length_cons]
      by_cases hb : b' = b
      · by_cases hj : j = off
        · subst hj
          rw [if_neg (by omega), if_pos ⟨hb, by omega⟩, if_pos ⟨hb, by omega⟩]; simp
        · by_cases hr : off + 1 ≤ j ∧ j < off + 1 + xs.length
          · rw [if_pos ⟨hb, hr⟩, if_pos ⟨hb, by omega⟩]
            rw [show j - off = (j - (off + 1)) + 1 by omega]; simp
          · rw [if_neg (by simp [hr]), if_neg (by omega), if_neg (by omega)]
      · rw [if_neg (by simp [hb]), if_neg (by simp [hb]), if_neg (by simp [hb])]

theorem loadN_spec (m : Mem) (b : Option Nat) (k off : Nat) (xs : List Elem) :
    loadN m b off k = some xs ↔ xs.length = k ∧ ∀ i x, xs[i]? = some x → load m b (off + i) = some x := by
  induction k generalizing off xs with
  | zero =>
    unfold loadN
    constructor
    · intro h; cases h; simp
    · rintro ⟨h, _⟩
      rw [List.length_eq_zero_iff] at h; rw [h]
  | succ k ih =>
    unfold loadN
    constructor
    · intro h
      cases h1 : load m b off with
      | none => rw [h1] at h; simp at h
      | some x =>
        rw [h1] at h
        simp only [Option.bind_some] at h
        cases h2 : loadN m b (off + 1) k with
        | none => rw [h2] at h; simp at h
        | some ys =>
          rw [h2] at h
          simp only [Option.bind_some, Option.some.injEq] at h
          subst h
          obtain ⟨l, hl⟩ := (ih (off + 1) ys).1 h2
          refine ⟨by simp [l], ?_⟩
          intro i z hz
          cases i with
          | zero => simp at hz; subst hz; simpa using h1
          | succ i =>
            have := hl i z (by simpa using hz)
            rw [← this]; congr 1; omega
    · rintro ⟨hl, h⟩
      cases xs with
      | nil => simp at hl
      | cons x ys =>
        have h0 := h 0 x (by simp)
        have h2 := (ih (off + 1) ys).2 ⟨by simpa using hl, fun i z hz => by
          rw [← h (i + 1) z (by simpa using hz)]; congr 1; omega⟩
        simp only [Nat.add_zero] at h0
        rw [h0, h2]; rfl

theorem shows_loadN (m : Mem) (v : Vec) (xs : List Elem) : Shows m v xs ↔ loadN m v.blk v.off v.len = some xs := by
  rw [loadN_spec]; rfl

theorem Shows.unique {m : Mem} {v : Vec} {xs ys : List Elem} (h1 : Shows m v xs) (h2 : Shows m v ys) : xs = ys := by
  rw [shows_loadN] at h1 h2
  rw [h1] at h2; exact Option.some.inj h2

/-- Contents depend only on the visible cells. -/
theorem Shows.congr {m m' : Mem} {v : Vec} {xs : List Elem} (h : Shows m v xs)
    (he : ∀ j, v.off ≤ j → j < v.off + v.len → load m' v.blk j = load m v.blk j) : Shows m' v xs := by
  refine ⟨h.1, fun i x hx => ?_⟩
  have hi := (List.getElem?_eq_some_iff.1 hx).1
  rw [he _ (by omega) (by have := h.1; omega)]; exact h.2 i x hx

theorem WF.congr {m m' : Mem} {v : Vec} (h : WF m v)
    (he : ∀ j x, load m v.blk j = some x → ∃ y, load m' v.blk j = some y) : WF m' v :=
  ⟨h.1, fun i hi => by obtain ⟨x, hx⟩ := h.2 i hi; exact he _ x hx⟩

/-- Every well-formed vector shows some list. -/
theorem WF.shows {m : Mem} {v : Vec} (h : WF m v) : ∃ xs, Shows m v xs := by
  have : ∀ k, k ≤ v.cap → ∃ xs, loadN m v.blk v.off k = some xs := by
    intro k
    induction k with
    | zero => intro _; exact ⟨[], rfl⟩
    | succ k ih =>
      intro hk
      obtain ⟨xs, hx⟩ := ih (by omega)
      obtain ⟨y, hy⟩ := h.2 k (by omega)
      rw [loadN_spec] at hx
      refine ⟨xs ++ [y], (loadN_spec ..).2 ⟨by simp [hx.1], ?_⟩⟩
      intro i x hxi
      by_cases hi : i < xs.length
      · rw [List.getElem?_append_left hi] at hxi; exact hx.2 i x hxi
      · rw [List.getElem?_append_right (by omega)] at hxi
        have : i - xs.length = 0 := by
          have := (List.getElem?_eq_some_iff.1 hxi).1
          simp at this; omega
        rw [this] at hxi
        simp at hxi; subst hxi
        rw [show i = k by omega]; exact hy
  obtain ⟨xs, hx⟩ := this v.len h.1
  exact ⟨xs, (shows_loadN ..).2 hx⟩

theorem memmove_spec {m : Mem} {db sb : Option Nat} {doff soff k : Nat} {xs : List Elem}
    (hs : loadN m sb soff k = some xs) (hd : ∀ i, i < k → ∃ y, load m db (doff + i) = some y) :
    ∃ m', memmove m db doff sb soff k = some m' ∧ m'.length = m.length ∧
      ∀ b j, load m' b j = if b = db ∧ doff ≤ j ∧ j < doff + k then xs[j - doff]? else load m b j := by
  have hl := ((loadN_spec ..).1 hs).1
  obtain ⟨m', e, l, h⟩ := storeN_spec xs m db doff (by rw [hl]; exact hd)
  refine ⟨m', ?_, l, by rw [hl] at h; exact h⟩
  unfold memmove; rw [hs]; exact e

theorem arrayNew_load (m : Mem) (esz n : Nat) (b : Option Nat) (i : Nat) :
    load (arrayNew m esz n).1 b i =
      if b = some m.length then (if i < n then some (List.replicate esz 0) else none) else load m b i := by
  unfold arrayNew load
  cases b with
  | none => simp
  | some b =>
    simp only [Option.bind_some, Option.some.injEq]
    by_cases hb : b = m.length
    · subst hb
      rw [List.getElem?_append_right (Nat.le_refl _)]
      simp [List.getElem?_replicate]
    · rw [if_neg hb]
      by_cases hlt : b < m.length
      · rw [List.getElem?_append_left hlt]
      · rw [List.getElem?_append_right (by omega), List.getElem?_eq_none (by simp; omega), List.getElem?_eq_none (by omega)]

theorem loadN_congr {m m' : Mem} {b : Option Nat} {off k : Nat} {xs : List Elem} (h : loadN m b off k = some xs)
    (he : ∀ j x, load m b j = some x → load m' b j = some x) : loadN m' b off k = some xs := by
  rw [loadN_spec] at h ⊢
  exact ⟨h.1, fun i x hx => he _ _ (h.2 i x hx)⟩

/-- Old cells survive the allocation of a block. -/
theorem arrayNew_keep {m : Mem} {esz n : Nat} {b : Option Nat} {i : Nat} {x : Elem} (h : load m b i = some x) :
    load (arrayNew m esz n).1 b i = some x := by
  rw [arrayNew_load, if_neg, h]
  rintro rfl
  have := load_lt h; omega

/-- Capacity after `rti_vec_grow`. -/
def newCap (v : Vec) (custom : Nat) : Nat := if custom ≠ 0 then custom else if v.cap > 0 then v.cap * 2 else defaultCap

theorem grow_spec {m : Mem} {esz : Nat} {v : Vec} {custom : Nat} {xs : List Elem} (hw : WF m v) (hs : Shows m v xs)
    (h31 : custom < 2 ^ 31) (hc : custom ≠ 0 → v.len ≤ custom) :
    ∃ m', grow m esz v custom = .ok (m', ⟨some m.length, 0, v.len, newCap v custom⟩) ∧ m'.length = m.length + 1 ∧
      WF m' ⟨some m.length, 0, v.len, newCap v custom⟩ ∧ Shows m' ⟨some m.length, 0, v.len, newCap v custom⟩ xs ∧
      (∀ b j, b ≠ some m.length → load m' b j = load m b j) := by
  have hlen : v.len ≤ newCap v custom := by
    have := hw.1
    unfold newCap defaultCap
    split
    · exact hc ‹_›
    · split <;> omega
  have hcopy : ∃ m', (if v.len > 0 then orUb (memmove (arrayNew m esz (newCap v custom)).1 (some m.length) 0 v.blk v.off v.len)
      else .ok (arrayNew m esz (newCap v custom)).1) = .ok m' ∧ m'.length = m.length + 1 ∧
      ∀ b j, load m' b j = if b = some m.length ∧ j < v.len then xs[j]? else load (arrayNew m esz (newCap v custom)).1 b j := by
    by_cases h0 : v.len > 0
    · rw [if_pos h0]
      rw [shows_loadN] at hs
      obtain ⟨m', e, l, hm⟩ := memmove_spec (m := (arrayNew m esz (newCap v custom)).1) (db := some m.length) (doff := 0)
        (loadN_congr hs (fun j x hx => arrayNew_keep hx)) (fun i hi => ⟨_, by
          rw [arrayNew_load, if_pos rfl, if_pos (by omega)]⟩)
      refine ⟨m', by rw [e]; rfl, by rw [l]; simp [arrayNew], fun b j => ?_⟩
      rw [hm]
      simp only [Nat.zero_le, true_and, Nat.zero_add, Nat.sub_zero]
    · rw [if_neg h0]
      exact ⟨_, rfl, by simp [arrayNew], fun b j => by rw [if_neg (by omega)]⟩
  obtain ⟨m', e, l, hm⟩ := hcopy
  have hxl := hs.1
  refine ⟨m', ?_, l, ⟨hlen, fun i hi => ?_⟩, ⟨hxl, fun i x hx => ?_⟩, fun b j hb => ?_⟩
  · unfold grow
    rw [if_neg (by omega)]
    show Res.bind (if v.len > 0 then orUb (memmove (arrayNew m esz (newCap v custom)).1 (some m.length) 0 v.blk v.off v.len)
      else .ok (arrayNew m esz (newCap v custom)).1) _ = _
    rw [e]; rfl
  · simp only [Nat.zero_add] at hi ⊢
    rw [hm]
    by_cases hil : i < v.len
    · rw [if_pos ⟨rfl, hil⟩]; exact ⟨_, List.getElem?_eq_getElem (by omega)⟩
    · rw [if_neg (by omega), arrayNew_load, if_pos rfl, if_pos hi]; exact ⟨_, rfl⟩
  · have := (List.getElem?_eq_some_iff.1 hx).1
    simp only [Nat.zero_add]
    rw [hm, if_pos ⟨rfl, by omega⟩]; exact hx
  · rw [hm, if_neg (by simp [hb]), arrayNew_load, if_neg hb]

theorem assignRaw_last {m : Mem} {v : Vec} {x y : Elem} (h : load m v.blk (v.off + v.len) = some y) :
    ∃ m', assignRaw m { v with len := v.len + 1 } v.len x = .ok m' ∧ m'.length = m.length ∧
      ∀ b j, load m' b j = if b = v.blk ∧ j = v.off + v.len then some x else load m b j := by
  obtain ⟨m', e, l, hm⟩ := store_spec (x := x) h
  refine ⟨m', ?_, l, hm⟩
  unfold assignRaw
  rw [if_pos (by right; simp)]
  show orUb (store m v.blk (v.off + v.len) x) = _
  rw [e]; rfl

theorem shows_push {m m' : Mem} {v : Vec} {xs : List Elem} {x : Elem} (hs : Shows m v xs)
    (hm : ∀ b j, load m' b j = if b = v.blk ∧ j = v.off + v.len then some x else load m b j) :
    Shows m' { v with len := v.len + 1 } (xs ++ [x]) := by
  refine ⟨by simp [hs.1], fun i y hy => ?_⟩
  show load m' v.blk (v.off + i) = some y
  rw [hm]
  have hl := hs.1
  by_cases hi : i < xs.length
  · rw [List.getElem?_append_left hi] at hy
    rw [if_neg (by omega)]; exact hs.2 i y hy
  · rw [List.getElem?_append_right (by omega)] at hy
    have := (List.getElem?_eq_some_iff.1 hy).1
    simp at this
    rw [show i - xs.length = 0 by omega] at hy
    simp at hy
    rw [if_pos ⟨rfl, by omega⟩, hy]

/-- Push in place (there is room) and push with growth. -/
theorem push_spec {m : Mem} {esz : Nat} {v : Vec} {x : Elem} {xs : List Elem} (hw : WF m v) (hs : Shows m v xs) :
    ∃ m' v', push m esz v x = .ok (m', v') ∧ WF m' v' ∧ Shows m' v' (xs ++ [x]) ∧
      ((v.len < v.cap ∧ v' = { v with len := v.len + 1 } ∧ m'.length = m.length ∧
          ∀ b j, load m' b j = if b = v.blk ∧ j = v.off + v.len then some x else load m b j) ∨
       (v.len = v.cap ∧ v'.blk = some m.length ∧ m'.length = m.length + 1 ∧
          ∀ b j, b ≠ some m.length → load m' b j = load m b j)) := by
  unfold push
  by_cases hc : v.len = v.cap
  · rw [if_pos hc]
    obtain ⟨m1, e1, l1, w1, s1, f1⟩ := grow_spec (esz := esz) (custom := 0) hw hs (by decide) (by simp)
    rw [e1, Res.bind_ok]
    have hcap : v.len < newCap v 0 := by
      unfold newCap defaultCap
      simp only [ne_eq, not_true_eq_false, if_false]
      split <;> omega
    obtain ⟨y, hy⟩ := w1.2 v.len hcap
    obtain ⟨m2, e2, l2, hm⟩ := assignRaw_last (v := ⟨some m.length, 0, v.len, newCap v 0⟩) (x := x) hy
    simp only
    rw [e2, Res.bind_ok]
    refine ⟨m2, _, rfl, ⟨hcap, fun i hi => ?_⟩, shows_push s1 hm, Or.inr ⟨hc, rfl, by omega, fun b j hb => ?_⟩⟩
    · rw [hm]
      split
      · exact ⟨_, rfl⟩
      · exact w1.2 i hi
    · rw [hm, if_neg (by simp [hb]), f1 b j hb]
  · rw [if_neg hc, Res.bind_ok]
    have hlt : v.len < v.cap := by have := hw.1; omega
    obtain ⟨y, hy⟩ := hw.2 v.len hlt
    obtain ⟨m2, e2, l2, hm⟩ := assignRaw_last (x := x) hy
    simp only
    rw [e2, Res.bind_ok]
    refine ⟨m2, _, rfl, ⟨hlt, fun i hi => ?_⟩, shows_push hs hm, Or.inl ⟨hlt, rfl, l2, hm⟩⟩
    rw [hm]
    split
    · exact ⟨_, rfl⟩
    · exact hw.2 i hi

theorem access_spec {m : Mem} {v : Vec} {xs : List Elem} (hs : Shows m v xs) (i : Nat) :
    access m v i = match xs[i]? with | some x => .ok x | none => .throws := by
  unfold access
  by_cases hi : i < xs.length
  · rw [if_neg (by have := hs.1; omega), List.getElem?_eq_getElem hi, hs.2 i _ (List.getElem?_eq_getElem hi)]
    rfl
  · rw [if_pos (by have := hs.1; omega), List.getElem?_eq_none (by omega)]

theorem assign_throws {m : Mem} {v : Vec} {i : Nat} (h : v.len ≤ i) (x : Elem) : assign m v i x = .throws := by
  unfold assign elementAddr
  rw [if_pos h]; rfl

theorem assign_spec {m : Mem} {v : Vec} {xs : List Elem} (hs : Shows m v xs) {i : Nat} (hi : i < v.len) (x : Elem) :
    ∃ m', assign m v i x = .ok m' ∧ m'.length = m.length ∧
      ∀ b j, load m' b j = if b = v.blk ∧ j = v.off + i then some x else load m b j := by
  obtain ⟨m', e, l, hm⟩ := store_spec (x := x) (hs.2 i _ (List.getElem?_eq_getElem (by have := hs.1; omega)))
  refine ⟨m', ?_, l, hm⟩
  unfold assign elementAddr
  rw [if_neg (by omega), Res.bind_ok]
  simp only
  rw [e]; rfl

/-- A write at cell `(b,c)` seen through any header. -/
theorem shows_write {m m' : Mem} {b : Option Nat} {c : Nat} {x : Elem} {w : Vec} {ys : List Elem} (hs : Shows m w ys)
    (hm : ∀ b' j, load m' b' j = if b' = b ∧ j = c then some x else load m b' j) :
    (Covers w b c → Shows m' w (ys.set (c - w.off) x)) ∧ (¬ Covers w b c → Shows m' w ys) := by
  constructor
  · rintro ⟨h1, h2, h3⟩
    refine ⟨by simp [hs.1], fun i y hy => ?_⟩
    rw [hm]
    by_cases hi : i = c - w.off
    · subst hi
      rw [List.getElem?_set_self (by have := hs.1; omega)] at hy
      rw [if_pos ⟨h1, by omega⟩]; exact hy
    · rw [List.getElem?_set_ne (by omega)] at hy
      rw [if_neg (by omega)]; exact hs.2 i y hy
  · intro hn
    refine hs.congr (fun j h1 h2 => ?_)
    rw [hm, if_neg]
    rintro ⟨e1, rfl⟩
    exact hn ⟨e1, h1, h2⟩

theorem wf_write {m m' : Mem} {b : Option Nat} {c : Nat} {x : Elem} {w : Vec} (hw : WF m w)
    (hm : ∀ b' j, load m' b' j = if b' = b ∧ j = c then some x else load m b' j) : WF m' w := by
  refine hw.congr (fun j y hy => ?_)
  rw [hm]; split
  · exact ⟨_, rfl⟩
  · exact ⟨y, hy⟩

theorem append_range {m m' : Mem} {v : Vec} {xs ys : List Elem} {k : Nat} (hs : Shows m v xs) (hk : ys.length = k)
    (hm : ∀ b j, load m' b j = if b = v.blk ∧ v.off + v.len ≤ j ∧ j < v.off + v.len + k then ys[j - (v.off + v.len)]?
      else load m b j) : Shows m' { v with len := v.len + k } (xs ++ ys) := by
  refine ⟨by simp [hs.1, hk], fun i y hy => ?_⟩
  show load m' v.blk (v.off + i) = some y
  rw [hm]
  have hl := hs.1
  by_cases hi : i < xs.length
  · rw [List.getElem?_append_left hi] at hy
    rw [if_neg (by omega)]; exact hs.2 i y hy
  · rw [List.getElem?_append_right (by omega)] at hy
    have := (List.getElem?_eq_some_iff.1 hy).1
    rw [if_pos ⟨rfl, by omega, by omega⟩, show v.off + i - (v.off + v.len) = i - xs.length by omega]; exact hy

/-- Appending in place and appending with growth (two different headers, which may share storage). -/
theorem append_spec {m : Mem} {esz : Nat} {dst src : Vec} {xs ys : List Elem} (hw : WF m dst) (hs : Shows m dst xs)
    (hy : Shows m src ys) (h31 : dst.len + src.len + 1 < 2 ^ 31) :
    ∃ m' v', append m esz dst src = .ok (m', v') ∧ WF m' v' ∧ Shows m' v' (xs ++ ys) ∧
      ((dst.len + src.len ≤ dst.cap ∧ v' = { dst with len := dst.len + src.len } ∧ m'.length = m.length ∧
          ∀ b j, load m' b j = if b = dst.blk ∧ dst.off + dst.len ≤ j ∧ j < dst.off + dst.len + src.len
            then ys[j - (dst.off + dst.len)]? else load m b j) ∨
       (dst.cap < dst.len + src.len ∧ v'.blk = some m.length ∧ m'.length = m.length + 1 ∧
          ∀ b j, b ≠ some m.length → load m' b j = load m b j)) := by
  unfold append
  by_cases hc : dst.len + src.len > dst.cap
  · rw [if_pos hc]
    obtain ⟨m1, e1, l1, w1, s1, f1⟩ := grow_spec (esz := esz) (custom := dst.len + src.len + 1) hw hs h31 (by omega)
    rw [e1, Res.bind_ok]
    have hcap : newCap dst (dst.len + src.len + 1) = dst.len + src.len + 1 := by unfold newCap; rw [if_pos (by omega)]
    rw [shows_loadN] at hy
    have hy1 : loadN m1 src.blk src.off src.len = some ys := loadN_congr hy (fun j x hx => by
      rw [f1, hx]
      intro hb; rw [hb] at hx; have := load_lt hx; omega)
    obtain ⟨m2, e2, l2, hm⟩ := memmove_spec (db := some m.length) (doff := 0 + dst.len) hy1 (fun i hi => by
      have := w1.2 (dst.len + i) (by simp only [hcap]; omega)
      rw [show 0 + dst.len + i = 0 + (dst.len + i) by omega]; exact this)
    simp only
    rw [e2]
    refine ⟨m2, _, rfl, ⟨by simp only [hcap]; omega, fun i hi => ?_⟩,
      append_range (v := ⟨some m.length, 0, dst.len, newCap dst (dst.len + src.len + 1)⟩) s1
        ((loadN_spec ..).1 hy).1 hm, Or.inr ⟨hc, rfl, by omega, fun b j hb => ?_⟩⟩
    · rw [hm]
      split
      · exact ⟨_, List.getElem?_eq_getElem (by have := ((loadN_spec ..).1 hy).1; omega)⟩
      · exact w1.2 i hi
    · rw [hm, if_neg (by simp [hb]), f1 b j hb]
  · rw [if_neg hc, Res.bind_ok]
    have hyl := hy.1
    rw [shows_loadN] at hy
    obtain ⟨m2, e2, l2, hm⟩ := memmove_spec (db := dst.blk) (doff := dst.off + dst.len) hy (fun i hi => by
      have := hw.2 (dst.len + i) (by omega)
      rw [Nat.add_assoc]; exact this)
    simp only
    rw [e2]
    refine ⟨m2, _, rfl, ⟨by simp only; omega, fun i hi => ?_⟩, append_range hs hyl hm, Or.inl ⟨by omega, rfl, l2, hm⟩⟩
    rw [hm]
    split
    · exact ⟨_, List.getElem?_eq_getElem (by omega)⟩
    · exact hw.2 i hi

theorem appendSelf_spec {m : Mem} {esz : Nat} {v : Vec} {xs : List Elem} (hw : WF m v) (hs : Shows m v xs)
    (h31 : v.len + v.len + 1 < 2 ^ 31) :
    ∃ m' v', appendSelf m esz v = .ok (m', v') ∧ WF m' v' ∧ Shows m' v' (xs ++ xs) ∧
      ((v' = { v with len := v.len + v.len } ∧ m'.length = m.length ∧
          ∀ b j, load m' b j = if b = v.blk ∧ v.off + v.len ≤ j ∧ j < v.off + v.len + v.len
            then xs[j - (v.off + v.len)]? else load m b j) ∨
       (v'.blk = some m.length ∧ m'.length = m.length + 1 ∧ ∀ b j, b ≠ some m.length → load m' b j = load m b j)) := by
  unfold appendSelf
  by_cases hc : v.len + v.len > v.cap
  · rw [if_pos hc]
    obtain ⟨m1, e1, l1, w1, s1, f1⟩ := grow_spec (esz := esz) (custom := v.len + v.len + 1) hw hs h31 (by omega)
    rw [e1, Res.bind_ok]
    have hcap : newCap v (v.len + v.len + 1) = v.len + v.len + 1 := by unfold newCap; rw [if_pos (by omega)]
    have hy1 := (shows_loadN ..).1 s1
    obtain ⟨m2, e2, l2, hm⟩ := memmove_spec (db := some m.length) (doff := 0 + v.len) hy1 (fun i hi => by
      have := w1.2 (v.len + i) (by simp only [hcap]; simp only at hi; omega)
      rw [show 0 + v.len + i = 0 + (v.len + i) by omega]; exact this)
    simp only at e2 hm ⊢
    rw [e2]
    refine ⟨m2, _, rfl, ⟨by simp only [hcap]; omega, fun i hi => ?_⟩,
      append_range (v := ⟨some m.length, 0, v.len, newCap v (v.len + v.len + 1)⟩) s1
        hs.1 hm, Or.inr ⟨rfl, by omega, fun b j hb => ?_⟩⟩
    · rw [hm]
      split
      · exact ⟨_, List.getElem?_eq_getElem (by have := hs.1; omega)⟩
      · exact w1.2 i hi
    · rw [hm, if_neg (by simp [hb]), f1 b j hb]
  · rw [if_neg hc, Res.bind_ok]
    have hy := (shows_loadN ..).1 hs
    obtain ⟨m2, e2, l2, hm⟩ := memmove_spec (db := v.blk) (doff := v.off + v.len) hy (fun i hi => by
      have := hw.2 (v.len + i) (by omega)
      rw [Nat.add_assoc]; exact this)
    simp only
    rw [e2]
    refine ⟨m2, _, rfl, ⟨by simp only; omega, fun i hi => ?_⟩, append_range hs hs.1 hm, Or.inl ⟨rfl, l2, hm⟩⟩
    rw [hm]
    split
    · exact ⟨_, List.getElem?_eq_getElem (by have := hs.1; omega)⟩
    · exact hw.2 i hi

/-- `rt_vec_cap`: an empty vector in fresh storage. -/
theorem capNew_spec (m : Mem) (esz : Nat) (c : Int) :
    (c < 0 → capNew m esz c = .throws) ∧
    (0 ≤ c → ∃ m' v', capNew m esz c = .ok (m', v') ∧ WF m' v' ∧ Shows m' v' [] ∧ v'.off = 0 ∧ v'.cap = c.toNat ∧
      (v'.blk = none ∧ m' = m ∨ v'.blk = some m.length ∧ m'.length = m.length + 1) ∧
      (∀ b j, b ≠ some m.length → load m' b j = load m b j)) := by
  unfold capNew
  constructor
  · intro h; rw [if_pos h]
  · intro h
    rw [if_neg (by omega)]
    by_cases hc : c.toNat > 0
    · rw [if_pos hc]
      refine ⟨_, _, rfl, ⟨by simp, fun i hi => ?_⟩, ⟨rfl, by simp⟩, rfl, rfl, Or.inr ⟨rfl, by simp [arrayNew]⟩, fun b j hb => ?_⟩
      · show ∃ x, load (arrayNew m esz c.toNat).1 (some m.length) (0 + i) = some x
        rw [arrayNew_load, if_pos rfl, if_pos (by simpa using hi)]; exact ⟨_, rfl⟩
      · rw [arrayNew_load, if_neg hb]
    · rw [if_neg hc]
      exact ⟨m, _, rfl, ⟨by simp, by simp⟩, ⟨rfl, by simp⟩, rfl, by simp; omega, Or.inl ⟨rfl, rfl⟩, fun _ _ _ => rfl⟩

theorem concat_spec {m : Mem} {esz : Nat} {a b : Vec} {xs ys : List Elem} (hx : Shows m a xs) (hy : Shows m b ys) :
    ∃ m' v', concat m esz a b = .ok (m', v') ∧ WF m' v' ∧ Shows m' v' (xs ++ ys) ∧
      (v'.blk = none ∧ v'.len = 0 ∨ v'.blk = some m.length ∧ m'.length = m.length + 1) ∧ m.length ≤ m'.length ∧ m'.length ≤ m.length + 1 ∧
      (∀ b j, b ≠ some m.length → load m' b j = load m b j) := by
  unfold concat
  obtain ⟨m1, v1, e1, w1, s1, o1, c1, b1, f1⟩ := (capNew_spec m esz ((a.len + b.len : Nat) : Int)).2 (by omega)
  rw [e1, Res.bind_ok]
  have hcap : v1.cap = a.len + b.len := by rw [c1]; omega
  rw [shows_loadN] at hx hy
  have hold : ∀ {bb j x}, load m bb j = some x → load m1 bb j = some x := by
    intro bb j x h
    rw [f1, h]
    rintro rfl
    have := load_lt h; omega
  obtain ⟨m2, e2, l2, h2⟩ := memmove_spec (db := v1.blk) (doff := 0) (loadN_congr hx fun j x => hold) (fun i hi => by
    have := w1.2 i (by omega)
    rw [o1] at this; exact this)
  simp only
  rw [e2]
  show ∃ m' v', Res.bind (orUb (memmove m2 v1.blk a.len b.blk b.off b.len)) _ = _ ∧ _
  have hxl := ((loadN_spec ..).1 hx).1
  have hyl := ((loadN_spec ..).1 hy).1
  -- the source cells of `b` are not in the fresh block
  have hysrc : loadN m2 b.blk b.off b.len = some ys := by
    refine loadN_congr hy (fun j x hj => ?_)
    rw [h2, if_neg, hold hj]
    rintro ⟨e, _, hlt⟩
    rcases b1 with ⟨hb, _⟩ | ⟨hb, _⟩
    · rw [e, hb] at hj; cases hj
    · rw [e, hb] at hj; have := load_lt hj; omega
  obtain ⟨m3, e3, l3, h3⟩ := memmove_spec (db := v1.blk) (doff := a.len) hysrc (fun i hi => by
    rw [h2]
    split
    · exact ⟨_, List.getElem?_eq_getElem (by omega)⟩
    · have := w1.2 (a.len + i) (by omega)
      rw [o1, Nat.zero_add] at this; exact this)
  rw [e3]
  refine ⟨m3, _, rfl, ⟨by simp only; omega, fun i hi => ?_⟩, ⟨by simp [hxl, hyl], fun i x hi => ?_⟩, ?_, ?_, ?_, ?_⟩
  · show ∃ x, load m3 v1.blk (v1.off + i) = some x
    rw [h3]
    split
    · exact ⟨_, List.getElem?_eq_getElem (by omega)⟩
    · rw [h2]
      split
      · exact ⟨_, List.getElem?_eq_getElem (by omega)⟩
      · exact w1.2 i hi
  · show load m3 v1.blk (v1.off + i) = some x
    rw [o1, Nat.zero_add, h3]
    by_cases hi1 : i < xs.length
    · rw [List.getElem?_append_left hi1] at hi
      rw [if_neg (by omega), h2, if_pos ⟨rfl, by omega, by omega⟩]; exact hi
    · rw [List.getElem?_append_right (by omega)] at hi
      have := (List.getElem?_eq_some_iff.1 hi).1
      rw [if_pos ⟨rfl, by omega, by omega⟩, ← hxl]; exact hi
  · rcases b1 with ⟨hb, hm⟩ | ⟨hb, hm1⟩
    · left
      refine ⟨hb, ?_⟩
      show a.len + b.len = 0
      rcases Nat.eq_zero_or_pos (a.len + b.len) with h0 | h0
      · exact h0
      · obtain ⟨x, hx⟩ := w1.2 0 (by omega)
        rw [hb] at hx; cases hx
    · exact Or.inr ⟨hb, by omega⟩
  · rcases b1 with ⟨_, hm⟩ | ⟨_, hm⟩
    · subst hm; omega
    · omega
  · rcases b1 with ⟨_, hm⟩ | ⟨_, hm⟩
    · subst hm; omega
    · omega
  · intro bb j hb
    rw [h3, if_neg, h2, if_neg, f1 bb j hb]
    · rintro ⟨e, _, hlt⟩
      rcases b1 with ⟨hb', _⟩ | ⟨hb', _⟩
      · obtain ⟨y, hy⟩ := w1.2 j (by omega)
        rw [hb'] at hy; cases hy
      · rw [e, hb'] at hb; exact hb rfl
    · rintro ⟨e, _, hlt⟩
      rcases b1 with ⟨hb', _⟩ | ⟨hb', _⟩
      · obtain ⟨y, hy⟩ := w1.2 j (by omega)
        rw [hb'] at hy; cases hy
      · rw [e, hb'] at hb; exact hb rfl

theorem copy_spec {m : Mem} {dst src : Vec} {xs ys : List Elem} (hx : Shows m dst xs) (hy : Shows m src ys) :
    ∃ m', copy m dst src = .ok (m', min xs.length ys.length) ∧ m'.length = m.length ∧
      Shows m' dst (ys.take (min xs.length ys.length) ++ xs.drop (min xs.length ys.length)) ∧
      (∀ b j, load m' b j = if b = dst.blk ∧ dst.off ≤ j ∧ j < dst.off + min xs.length ys.length
        then ys[j - dst.off]? else load m b j) := by
  have hxl := hx.1
  have hyl := hy.1
  have hn : (if src.len < dst.len then src.len else dst.len) = min xs.length ys.length := by
    split <;> omega
  unfold copy
  simp only [hn]
  by_cases h0 : min xs.length ys.length > 0
  · rw [if_pos h0]
    have hld : loadN m src.blk src.off (min xs.length ys.length) = some (ys.take (min xs.length ys.length)) := by
      rw [loadN_spec]
      refine ⟨by simp, fun i x hi => ?_⟩
      have := (List.getElem?_eq_some_iff.1 hi).1
      rw [List.getElem?_take_of_lt (by simp at this; omega)] at hi
      exact hy.2 i x hi
    obtain ⟨m', e, l, hm⟩ := memmove_spec (db := dst.blk) (doff := dst.off) hld (fun i hi =>
      ⟨_, hx.2 i _ (List.getElem?_eq_getElem (by omega))⟩)
    rw [e]
    have hm' : ∀ b j, load m' b j = if b = dst.blk ∧ dst.off ≤ j ∧ j < dst.off + min xs.length ys.length
        then ys[j - dst.off]? else load m b j := by
      intro b j
      rw [hm]
      split
      · rw [List.getElem?_take_of_lt (by omega)]
      · rfl
    refine ⟨m', rfl, l, ⟨by simp; omega, fun i x hi => ?_⟩, hm'⟩
    rw [hm']
    by_cases hin : i < min xs.length ys.length
    · rw [List.getElem?_append_left (by simp; omega), List.getElem?_take_of_lt hin] at hi
      rw [if_pos ⟨rfl, by omega, by omega⟩, show dst.off + i - dst.off = i by omega]; exact hi
    · rw [List.getElem?_append_right (by simp; omega), List.getElem?_drop] at hi
      simp only [List.length_take] at hi
      rw [if_neg (by omega)]
      apply hx.2
      rw [← hi]; congr 1; omega
  · rw [if_neg h0]
    have h0' : min xs.length ys.length = 0 := by omega
    refine ⟨m, rfl, rfl, ?_, fun b j => by rw [if_neg (by omega)]⟩
    rw [h0']; simpa using hx

theorem looksZero_small {junk : List (BitVec 8)} {x : Elem} (h : x.length ≤ 8) :
    looksZero junk x = true ↔ x = List.replicate x.length 0 := by
  unfold looksZero
  rw [List.take_append_of_le_length (by simpa using h), List.take_replicate, Nat.min_eq_left h]
  simp

theorem new_spec (m : Mem) (esz : Nat) (junk : List (BitVec 8)) (length : Int) (x : Elem) (hx : x.length = esz) (h8 : esz ≤ 8) :
    (length < 0 → new m esz junk length x = .throws) ∧
    (0 ≤ length → ∃ m' v', new m esz junk length x = .ok (m', v') ∧ WF m' v' ∧ Shows m' v' (List.replicate length.toNat x) ∧
      v'.blk = some m.length ∧ m'.length = m.length + 1 ∧ (∀ b j, b ≠ some m.length → load m' b j = load m b j)) := by
  unfold new
  constructor
  · intro h; rw [if_pos h]
  · intro h
    rw [if_neg (by omega)]
    simp only
    generalize hn : length.toNat = n
    generalize hc : (if n = 0 then defaultCap else n) = cap
    have hcap : n ≤ cap := by rw [← hc]; split <;> omega
    by_cases hz : n > 0 ∧ looksZero junk x = false
    · rw [if_pos hz]
      obtain ⟨m', e, l, hm⟩ := storeN_spec (List.replicate n x) (arrayNew m esz cap).1 (some m.length) 0 (fun i hi => ⟨_, by
        rw [arrayNew_load, if_pos rfl, if_pos (by simp at hi; omega)]⟩)
      show ∃ m' v', Res.bind (orUb (storeN (arrayNew m esz cap).1 (some m.length) 0 (List.replicate n x))) _ = _ ∧ _
      rw [e]
      refine ⟨m', _, rfl, ⟨hcap, fun i hi => ?_⟩, ⟨by simp, fun i y hy => ?_⟩, rfl, by rw [l]; simp [arrayNew], fun b j hb => ?_⟩
      · show ∃ y, load m' (some m.length) (0 + i) = some y
        rw [hm]
        split
        · rename_i hh
          exact ⟨_, List.getElem?_eq_getElem (by simp at hh ⊢; omega)⟩
        · rw [arrayNew_load, if_pos rfl, if_pos (by simpa using hi)]; exact ⟨_, rfl⟩
      · have := (List.getElem?_eq_some_iff.1 hy).1
        show load m' (some m.length) (0 + i) = some y
        rw [hm, if_pos ⟨rfl, by omega, by simp at this ⊢; omega⟩]
        simpa using hy
      · rw [hm, if_neg (by simp [hb]), arrayNew_load, if_neg hb]
    · rw [if_neg hz]
      refine ⟨_, _, rfl, ⟨hcap, fun i hi => ?_⟩, ⟨by simp, fun i y hy => ?_⟩, rfl, by simp [arrayNew], fun b j hb => ?_⟩
      · show ∃ y, load (arrayNew m esz cap).1 (some m.length) (0 + i) = some y
        rw [arrayNew_load, if_pos rfl, if_pos (by simpa using hi)]; exact ⟨_, rfl⟩
      · have hlt := (List.getElem?_eq_some_iff.1 hy).1
        simp only [List.length_replicate] at hlt
        have hlz : looksZero junk x = true := by
          cases hq : looksZero junk x
          · exact absurd ⟨by omega, hq⟩ hz
          · rfl
        rw [looksZero_small (by omega)] at hlz
        show load (arrayNew m esz cap).1 (some m.length) (0 + i) = some y
        rw [arrayNew_load, if_pos rfl, if_pos (by omega)]
        rw [List.getElem?_replicate, if_pos hlt] at hy
        cases hy
        rw [hx] at hlz
        rw [← hlz]
      · rw [arrayNew_load, if_neg hb]

end Nature.Vec
