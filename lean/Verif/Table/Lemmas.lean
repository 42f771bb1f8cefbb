import Verif.Table.Model
namespace Nature.Table
variable {V : Type}

/-- The slot `x` places after the place `s`. -/
def P (es : List (Slot V)) (s x : Nat) : Option (Slot V) := es[(s + x) % es.length]?

theorem findFrom_spec {es : List (Slot V)} {key : Key} {s : Nat} (hc : 0 < es.length) : ∀ (f d : Nat) (tb : Option Nat),
    (∀ y, y < d → P es s y ≠ some .empty ∧ ∀ v, P es s y ≠ some (.full key v)) →
    (∀ r, tb = some r → ∃ x, x < d ∧ r = (s + x) % es.length ∧ P es s x = some .tomb) →
    (∃ e, d ≤ e ∧ e < d + f ∧ P es s e = some .empty) →
    ∃ r x, findFrom es key f ((s + d) % es.length) tb = some r ∧ r = (s + x) % es.length ∧ (∀ y, y < x → P es s y ≠ some .empty) ∧
      ((∃ v, P es s x = some (.full key v)) ∨
        (P es s x = some .empty ∨ P es s x = some .tomb) ∧
          ∃ e, P es s e = some .empty ∧ ∀ y, y < e → ∀ v, P es s y ≠ some (.full key v)) := by
  intro f
  induction f with
  | zero => intro d tb _ _ ⟨e, h1, h2, _⟩; omega
  | succ f ih =>
    intro d tb h1 h2 ⟨e, he1, he2, he3⟩
    have hlt : (s + d) % es.length < es.length := Nat.mod_lt _ hc
    have hstep : ((s + d) % es.length + 1) % es.length = (s + (d + 1)) % es.length := by
      rw [Nat.mod_add_mod]; rfl
    have hd : P es s d = some es[(s + d) % es.length] := List.getElem?_eq_getElem hlt
    unfold findFrom
    rw [List.getElem?_eq_getElem hlt]
    cases hs : es[(s + d) % es.length] with
    | empty =>
      rw [hs] at hd
      cases tb with
      | none =>
        exact ⟨_, d, rfl, rfl, fun y hy => (h1 y hy).1, .inr ⟨.inl hd, d, hd, fun y hy => (h1 y hy).2⟩⟩
      | some r =>
        obtain ⟨x, hx1, hx2, hx3⟩ := h2 r rfl
        exact ⟨r, x, rfl, hx2, fun y hy => (h1 y (by omega)).1, .inr ⟨.inr hx3, d, hd, fun y hy => (h1 y hy).2⟩⟩
    | tomb =>
      rw [hs] at hd
      have hne : e ≠ d := by rintro rfl; rw [hd] at he3; cases he3
      dsimp only
      rw [hstep]
      refine ih (d + 1) _ ?_ ?_ ⟨e, by omega, by omega, he3⟩
      · intro y hy
        by_cases hyd : y = d
        · subst hyd; rw [hd]; simp
        · exact h1 y (by omega)
      · intro r hr
        cases tb with
        | none =>
          cases hr
          exact ⟨d, by omega, rfl, hd⟩
        | some t =>
          obtain ⟨x, hx1, hx2, hx3⟩ := h2 r hr
          exact ⟨x, by omega, hx2, hx3⟩
    | full k v =>
      rw [hs] at hd
      have hne : e ≠ d := by rintro rfl; rw [hd] at he3; cases he3
      dsimp only
      by_cases hk : k = key
      · rw [if_pos hk]
        subst hk
        exact ⟨_, d, rfl, rfl, fun y hy => (h1 y hy).1, .inl ⟨v, hd⟩⟩
      · rw [if_neg hk, hstep]
        refine ih (d + 1) _ ?_ ?_ ⟨e, by omega, by omega, he3⟩
        · intro y hy
          by_cases hyd : y = d
          · subst hyd; rw [hd]
            refine ⟨by simp, fun w hw => hk ?_⟩
            simp at hw; exact hw.1
          · exact h1 y (by omega)
        · intro r hr
          obtain ⟨x, hx1, hx2, hx3⟩ := h2 r hr
          exact ⟨x, by omega, hx2, hx3⟩

/-- The table has the value for the key. -/
def Has (es : List (Slot V)) (k : Key) (v : V) : Prop := ∃ j : Nat, es[j]? = some (.full k v)

/-- The entries in use or deleted. -/
def used : List (Slot V) → Nat
  | [] => 0
  | .empty :: rest => used rest
  | _ :: rest => used rest + 1

/-- What holds of the entries: every key is found from its place without passing an empty entry, and it is there once. -/
structure Inv (h : Key → UInt32) (es : List (Slot V)) : Prop where
  reach : ∀ (j : Nat) (k : Key) (v : V), es[j]? = some (.full k v) → ∃ d, j = ((h k).toNat % es.length + d) % es.length ∧
    ∀ y, y < d → P es ((h k).toNat % es.length) y ≠ some .empty
  once : ∀ (i j : Nat) (k : Key) (v w : V), es[i]? = some (.full k v) → es[j]? = some (.full k w) → i = j

theorem used_le (es : List (Slot V)) : used es ≤ es.length := by
  induction es with
  | nil => exact Nat.le_refl _
  | cons a rest ih => cases a <;> simp [used] <;> omega

theorem exists_empty (es : List (Slot V)) (h : used es < es.length) : ∃ j, j < es.length ∧ es[j]? = some .empty := by
  induction es with
  | nil => simp at h
  | cons a rest ih =>
    cases a with
    | empty => exact ⟨0, by simp, rfl⟩
    | tomb =>
      simp [used] at h
      obtain ⟨j, hj, e⟩ := ih h
      exact ⟨j + 1, by simp; omega, by simpa using e⟩
    | full k v =>
      simp [used] at h
      obtain ⟨j, hj, e⟩ := ih h
      exact ⟨j + 1, by simp; omega, by simpa using e⟩

theorem find_spec {h : Key → UInt32} {es : List (Slot V)} (hu : used es < es.length) (key : Key) :
    ∃ r x, find h es key = some r ∧ r < es.length ∧ r = ((h key).toNat % es.length + x) % es.length ∧
      (∀ y, y < x → P es ((h key).toNat % es.length) y ≠ some .empty) ∧
      ((∃ v, es[r]? = some (.full key v)) ∨
        (es[r]? = some .empty ∨ es[r]? = some .tomb) ∧
          ∃ e, P es ((h key).toNat % es.length) e = some .empty ∧ ∀ y, y < e → ∀ v, P es ((h key).toNat % es.length) y ≠ some (.full key v)) := by
  have hc : 0 < es.length := by omega
  obtain ⟨j, hj, hje⟩ := exists_empty es hu
  generalize hs : (h key).toNat % es.length = s
  have hsl : s < es.length := by rw [← hs]; exact Nat.mod_lt _ hc
  have hex : ∃ e, 0 ≤ e ∧ e < 0 + es.length ∧ P es s e = some .empty := by
    refine ⟨if s ≤ j then j - s else j + es.length - s, Nat.zero_le _, ?_, ?_⟩
    · split <;> omega
    · unfold P
      have : (s + if s ≤ j then j - s else j + es.length - s) % es.length = j := by
        split
        · rw [show s + (j - s) = j by omega, Nat.mod_eq_of_lt hj]
        · rw [show s + (j + es.length - s) = j + es.length by omega, Nat.add_mod_right, Nat.mod_eq_of_lt hj]
      rw [this]; exact hje
  obtain ⟨r, x, h1, h2, h3, h4⟩ := findFrom_spec (key := key) (s := s) hc es.length 0 none (by intro y hy; omega) (by intro r hr; cases hr) hex
  refine ⟨r, x, ?_, by rw [h2]; exact Nat.mod_lt _ hc, h2, h3, ?_⟩
  · unfold find
    rw [if_neg (by omega), hs]
    rw [Nat.add_zero, Nat.mod_eq_of_lt hsl] at h1
    exact h1
  · unfold P at h4
    rw [← h2] at h4
    exact h4

/-- If the key is not at the entry found then it is not in the table. -/
theorem absent {h : Key → UInt32} {es : List (Slot V)} (I : Inv h es) {key : Key}
    (ha : ∃ e, P es ((h key).toNat % es.length) e = some .empty ∧ ∀ y, y < e → ∀ v, P es ((h key).toNat % es.length) y ≠ some (.full key v)) :
    ∀ v, ¬ Has es key v := by
  rintro v ⟨j, hj⟩
  obtain ⟨d, hd1, hd2⟩ := I.reach j key v hj
  obtain ⟨e, he1, he2⟩ := ha
  have hP : P es ((h key).toNat % es.length) d = some (.full key v) := by unfold P; rw [← hd1]; exact hj
  rcases Nat.lt_trichotomy d e with hlt | rfl | hlt
  · exact he2 d hlt v hP
  · rw [hP] at he1; cases he1
  · exact hd2 e hlt he1

theorem has_fun {h : Key → UInt32} {es : List (Slot V)} (I : Inv h es) {k : Key} {v w : V} (h1 : Has es k v) (h2 : Has es k w) : v = w := by
  obtain ⟨i, hi⟩ := h1
  obtain ⟨j, hj⟩ := h2
  have := I.once i j k v w hi hj
  subst this
  rw [hi] at hj
  simpa using hj

theorem lookup {h : Key → UInt32} {es : List (Slot V)} (I : Inv h es) (hu : used es < es.length) (key : Key) :
    ∃ r, find h es key = some r ∧ r < es.length ∧
      ((∃ v, es[r]? = some (.full key v) ∧ Has es key v) ∨ (es[r]? = some .empty ∨ es[r]? = some .tomb) ∧ ∀ v, ¬ Has es key v) := by
  obtain ⟨r, x, h1, h2, h3, h4, h5⟩ := find_spec (h := h) hu key
  refine ⟨r, h1, h2, ?_⟩
  rcases h5 with ⟨v, hv⟩ | ⟨h5, h6⟩
  · exact .inl ⟨v, hv, r, hv⟩
  · exact .inr ⟨h5, absent I h6⟩

theorem get_set {es : List (Slot V)} {r : Nat} (hr : r < es.length) (s : Slot V) (j : Nat) :
    (es.set r s)[j]? = if j = r then some s else es[j]? := by
  rw [List.getElem?_set]
  split
  · rename_i e; subst e; simp [hr]
  · rename_i e; rw [if_neg (Ne.symm e)]

/-- Filling an entry keeps the order. -/
theorem P_set {es : List (Slot V)} {r : Nat} (hr : r < es.length) {s : Slot V} (hs : s ≠ .empty) {a y : Nat} (h : P es a y ≠ some .empty) :
    P (es.set r s) a y ≠ some .empty := by
  unfold P at *
  rw [List.length_set, get_set hr]
  split
  · simpa using hs
  · exact h

theorem put_inv {h : Key → UInt32} {es : List (Slot V)} (I : Inv h es) (hu : used es < es.length) (key : Key) (v : V) {r : Nat}
    (hf : find h es key = some r) : Inv h (es.set r (.full key v)) ∧ ∀ k w, Has (es.set r (.full key v)) k w ↔ if k = key then w = v else Has es k w := by
  obtain ⟨r', x, h1, h2, h3, h4, h5⟩ := find_spec (h := h) hu key
  rw [h1] at hf; cases hf
  have hkey : ∀ (j : Nat) (w : V), es[j]? = some (.full key w) → j = r := by
    intro j w hj
    rcases h5 with ⟨u, hu⟩ | ⟨_, h6⟩
    · exact I.once j r key w u hj hu
    · exact absurd ⟨j, hj⟩ (absent I h6 w)
  have hold : ∀ (k : Key) (w : V), k ≠ key → es[r]? ≠ some (.full k w) := by
    intro k w hk e
    rcases h5 with ⟨u, hu⟩ | ⟨h5 | h5, _⟩
    · rw [hu] at e; simp at e; exact hk e.1.symm
    · rw [h5] at e; cases e
    · rw [h5] at e; cases e
  refine ⟨⟨?_, ?_⟩, ?_⟩
  · intro j k w hj
    rw [get_set h2] at hj
    rw [List.length_set]
    by_cases hjr : j = r
    · subst hjr
      simp at hj
      obtain ⟨rfl, rfl⟩ := hj
      exact ⟨x, h3, fun y hy => P_set h2 (by simp) (h4 y hy)⟩
    · rw [if_neg hjr] at hj
      obtain ⟨d, hd1, hd2⟩ := I.reach j k w hj
      exact ⟨d, hd1, fun y hy => P_set h2 (by simp) (hd2 y hy)⟩
  · intro i j k w u hi hj
    rw [get_set h2] at hi hj
    by_cases hir : i = r
    · by_cases hjr : j = r
      · omega
      · rw [if_pos hir] at hi; rw [if_neg hjr] at hj
        simp at hi
        obtain ⟨rfl, rfl⟩ := hi
        exact absurd (hkey j _ hj) hjr
    · by_cases hjr : j = r
      · rw [if_pos hjr] at hj; rw [if_neg hir] at hi
        simp at hj
        obtain ⟨rfl, rfl⟩ := hj
        exact absurd (hkey i _ hi) hir
      · rw [if_neg hir] at hi; rw [if_neg hjr] at hj
        exact I.once i j k w u hi hj
  · intro k w
    by_cases hk : k = key
    · subst hk
      rw [if_pos rfl]
      constructor
      · rintro ⟨j, hj⟩
        rw [get_set h2] at hj
        by_cases hjr : j = r
        · rw [if_pos hjr] at hj; simp at hj; exact hj.symm
        · rw [if_neg hjr] at hj; exact absurd (hkey j w hj) hjr
      · rintro rfl
        exact ⟨r, by rw [get_set h2, if_pos rfl]⟩
    · rw [if_neg hk]
      constructor
      · rintro ⟨j, hj⟩
        rw [get_set h2] at hj
        by_cases hjr : j = r
        · rw [if_pos hjr] at hj; simp at hj; exact absurd hj.1.symm hk
        · rw [if_neg hjr] at hj; exact ⟨j, hj⟩
      · rintro ⟨j, hj⟩
        refine ⟨j, ?_⟩
        rw [get_set h2, if_neg]
        · exact hj
        · rintro rfl; exact hold k w hk hj

theorem del_inv {h : Key → UInt32} {es : List (Slot V)} (I : Inv h es) {key : Key} {r : Nat} {u : V} (hr : es[r]? = some (.full key u)) :
    Inv h (es.set r .tomb) ∧ ∀ k w, Has (es.set r .tomb) k w ↔ k ≠ key ∧ Has es k w := by
  have h2 : r < es.length := (List.getElem?_eq_some_iff.1 hr).1
  refine ⟨⟨?_, ?_⟩, ?_⟩
  · intro j k w hj
    rw [get_set h2] at hj
    rw [List.length_set]
    by_cases hjr : j = r
    · rw [if_pos hjr] at hj; simp at hj
    · rw [if_neg hjr] at hj
      obtain ⟨d, hd1, hd2⟩ := I.reach j k w hj
      exact ⟨d, hd1, fun y hy => P_set h2 (by simp) (hd2 y hy)⟩
  · intro i j k w x hi hj
    rw [get_set h2] at hi hj
    by_cases hir : i = r
    · rw [if_pos hir] at hi; simp at hi
    · by_cases hjr : j = r
      · rw [if_pos hjr] at hj; simp at hj
      · rw [if_neg hir] at hi; rw [if_neg hjr] at hj
        exact I.once i j k w x hi hj
  · intro k w
    constructor
    · rintro ⟨j, hj⟩
      rw [get_set h2] at hj
      by_cases hjr : j = r
      · rw [if_pos hjr] at hj; simp at hj
      · rw [if_neg hjr] at hj
        refine ⟨?_, j, hj⟩
        rintro rfl
        exact hjr (I.once j r k w u hj hr)
    · rintro ⟨hk, j, hj⟩
      refine ⟨j, ?_⟩
      rw [get_set h2, if_neg]
      · exact hj
      · rintro rfl; rw [hr] at hj; simp at hj; exact hk hj.1.symm

theorem used_set {es : List (Slot V)} {r : Nat} {s : Slot V} (hs : s ≠ .empty) (hr : r < es.length) :
    used (es.set r s) = counted es[r]? (used es) := by
  induction es generalizing r with
  | nil => simp at hr
  | cons a rest ih =>
    cases r with
    | zero => cases a <;> cases s <;> simp [used, counted] at hs ⊢
    | succ r =>
      simp at hr
      have := ih hr
      cases a <;> simp [used, this] <;> simp only [counted] <;> split <;> rfl

end Nature.Table
