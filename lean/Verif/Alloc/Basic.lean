import Verif.Alloc.Spec
import Verif.Ranges.Props
/-
Facts about single intervals: ends, splitting, use positions, split positions, register choice.
-/
namespace Nature.Alloc
open Nature.Ranges (Range Covers Sorted NonEmpty splitRanges splitRanges_spec last_ge last_mem
  covers_ge nextIntersect C38_split C38_free_below)

/-! ### ends -/

/-- First position of a list of ranges. -/
def lo (rs : List Range) : Int :=
  match rs with
  | [] => 0
  | r :: _ => r.lo

/-- Last position of a list of ranges, plus one. -/
def hi (rs : List Range) : Int :=
  match rs with
  | [] => 0
  | r :: rs => (rs.getLastD r).hi

theorem frm_eq (iv : Iv) : iv.frm = lo iv.ranges := by
  rw [Iv.frm, lo.eq_def]; cases iv.ranges <;> rfl

theorem til_eq (iv : Iv) : iv.til = hi iv.ranges := by
  rw [Iv.til, hi.eq_def]; cases iv.ranges <;> rfl

theorem lo_le {rs : List Range} (h : Sorted rs) {p : Int} (hp : Covers rs p) : lo rs ≤ p := by
  cases rs with
  | nil => obtain ⟨_, hr, _⟩ := hp; cases hr
  | cons r rs => exact covers_ge h hp

theorem lt_hi {rs : List Range} (h : Sorted rs) {p : Int} (hp : Covers rs p) : p < hi rs := by
  cases rs with
  | nil => obtain ⟨_, hr, _⟩ := hp; cases hr
  | cons r rs =>
    obtain ⟨x, hx, h1, h2⟩ := hp
    have := last_ge h x hx
    simp only [hi]; omega

theorem cov_lo {rs : List Range} (hn : NonEmpty rs) (h0 : rs ≠ []) : Covers rs (lo rs) := by
  cases rs with
  | nil => exact absurd rfl h0
  | cons r rs =>
    have := hn r (List.mem_cons_self ..)
    exact ⟨r, List.mem_cons_self .., by simp [lo], by simpa [lo] using this⟩

theorem cov_hi {rs : List Range} (hn : NonEmpty rs) (h0 : rs ≠ []) : Covers rs (hi rs - 1) := by
  cases rs with
  | nil => exact absurd rfl h0
  | cons r rs =>
    have h1 := last_mem r rs
    have h2 := hn _ h1
    exact ⟨_, h1, by simp only [hi]; omega, by simp only [hi]; omega⟩

theorem lo_lt_hi {rs : List Range} (h : Sorted rs) (hn : NonEmpty rs) (h0 : rs ≠ []) :
    lo rs < hi rs := lt_hi h (cov_lo hn h0)

theorem splitRanges_nonEmpty {pos : Int} {rs : List Range} (hn : NonEmpty rs) :
    NonEmpty (splitRanges pos rs).1 ∧ NonEmpty (splitRanges pos rs).2.1 := by
  induction rs with
  | nil => exact ⟨(fun r hr => by cases hr), (fun r hr => by cases hr)⟩
  | cons a rs ih =>
    have ha := hn a (List.mem_cons_self ..)
    obtain ⟨h1, h2⟩ := ih (fun r hr => hn r (List.mem_cons_of_mem _ hr))
    rw [splitRanges]
    simp only
    by_cases c1 : a.hi ≤ pos
    · rw [if_pos c1]
      refine ⟨?_, h2⟩
      intro r hr
      rcases List.mem_cons.1 hr with rfl | hr
      · exact ha
      · exact h1 r hr
    · rw [if_neg c1]
      by_cases c2 : a.lo ≥ pos
      · rw [if_pos c2]
        refine ⟨h1, ?_⟩
        intro r hr
        rcases List.mem_cons.1 hr with rfl | hr
        · exact ha
        · exact h2 r hr
      · rw [if_neg c2]
        refine ⟨?_, ?_⟩
        · intro r hr
          rcases List.mem_cons.1 hr with rfl | hr
          · simp only; omega
          · exact h1 r hr
        · intro r hr
          rcases List.mem_cons.1 hr with rfl | hr
          · simp only; omega
          · exact h2 r hr

/-- Everything about the two halves of a split strictly inside. -/
structure Halves (rs l r : List Range) (m : Bool) (pos : Int) : Prop where
  sl : Sorted l
  sr : Sorted r
  nl : NonEmpty l
  nr : NonEmpty r
  l0 : l ≠ []
  r0 : r ≠ []
  cl : ∀ p, Covers l p ↔ Covers rs p ∧ p < pos
  cr : ∀ p, Covers r p ↔ Covers rs p ∧ pos ≤ p
  cm : m = true ↔ Covers rs pos
  lol : lo l = lo rs
  hil : hi l ≤ pos
  lor : pos ≤ lo r
  hir : hi r = hi rs

theorem halves {rs : List Range} {pos : Int} (hs : Sorted rs) (hn : NonEmpty rs) (h0 : rs ≠ [])
    (h1 : lo rs < pos) (h2 : pos < hi rs) :
    Halves rs (splitRanges pos rs).1 (splitRanges pos rs).2.1 (splitRanges pos rs).2.2 pos := by
  obtain ⟨l, r, m, e, hl, hr, hl1, hr1, cl, cr, cm⟩ := splitRanges_spec (pos := pos) hs
  obtain ⟨n1, n2⟩ := splitRanges_nonEmpty (pos := pos) hn
  rw [e] at n1 n2 ⊢
  simp only at n1 n2 ⊢
  have l0 : l ≠ [] := by
    rintro rfl
    obtain ⟨_, h, _⟩ := (cl _).2 ⟨cov_lo hn h0, h1⟩
    cases h
  have r0 : r ≠ [] := by
    rintro rfl
    obtain ⟨_, h, _⟩ := (cr _).2 ⟨cov_hi hn h0, by omega⟩
    cases h
  have a1 := lo_le hl ((cl _).2 ⟨cov_lo hn h0, h1⟩)
  have a2 := lo_le hs ((cl _).1 (cov_lo n1 l0)).1
  have a3 := lt_hi hr ((cr _).2 ⟨cov_hi hn h0, by omega⟩)
  have a4 := lt_hi hs ((cr _).1 (cov_hi n2 r0)).1
  have a5 := ((cl _).1 (cov_hi n1 l0)).2
  have a6 := ((cr _).1 (cov_lo n2 r0)).2
  exact ⟨hl, hr, n1, n2, l0, r0, cl, cr, cm, by omega, by omega, a6, by omega⟩

/-! ### uses -/

theorem splitUses_append (pos : Int) (us : List Use) :
    (splitUses pos us).1 ++ (splitUses pos us).2 = us := by
  induction us with
  | nil => rfl
  | cons u us ih =>
    rw [splitUses]
    by_cases h : u.pos ≤ pos
    · rw [if_pos h]; simp [ih]
    · rw [if_neg h]; rfl

theorem splitUses_left {pos : Int} {us : List Use} :
    ∀ u ∈ (splitUses pos us).1, u.pos ≤ pos := by
  induction us with
  | nil => intro u hu; cases hu
  | cons a us ih =>
    intro u hu
    rw [splitUses] at hu
    by_cases h : a.pos ≤ pos
    · rw [if_pos h] at hu
      rcases List.mem_cons.1 hu with rfl | hu
      · exact h
      · exact ih u hu
    · rw [if_neg h] at hu; cases hu

theorem splitUses_right {pos : Int} {us : List Use} (hs : us.Pairwise fun a b => a.pos ≤ b.pos) :
    ∀ u ∈ (splitUses pos us).2, pos < u.pos := by
  induction us with
  | nil => intro u hu; cases hu
  | cons a us ih =>
    intro u hu
    rw [List.pairwise_cons] at hs
    rw [splitUses] at hu
    by_cases h : a.pos ≤ pos
    · rw [if_pos h] at hu; exact ih hs.2 u hu
    · rw [if_neg h] at hu
      rcases List.mem_cons.1 hu with rfl | hu
      · omega
      · have := hs.1 u hu; omega

theorem firstKind_none {k : Kind} {us : List Use} (h : firstKind k us = none) :
    ∀ u ∈ us, u.kind ≠ k := by
  induction us with
  | nil => intro u hu; cases hu
  | cons a us ih =>
    intro u hu
    rw [firstKind] at h
    by_cases c : a.kind = k
    · rw [if_pos c] at h; cases h
    · rw [if_neg c] at h
      rcases List.mem_cons.1 hu with rfl | hu
      · exact c
      · exact ih h u hu

theorem firstKind_some {k : Kind} {us : List Use} {w : Use}
    (hs : us.Pairwise fun a b => a.pos ≤ b.pos) (h : firstKind k us = some w) :
    w ∈ us ∧ w.kind = k ∧ ∀ u ∈ us, u.pos < w.pos → u.kind ≠ k := by
  induction us with
  | nil => cases h
  | cons a us ih =>
    rw [List.pairwise_cons] at hs
    rw [firstKind] at h
    by_cases c : a.kind = k
    · rw [if_pos c] at h
      cases h
      refine ⟨List.mem_cons_self .., c, ?_⟩
      intro u hu hlt
      rcases List.mem_cons.1 hu with rfl | hu
      · omega
      · have := hs.1 u hu; omega
    · rw [if_neg c] at h
      obtain ⟨h1, h2, h3⟩ := ih hs.2 h
      refine ⟨List.mem_cons_of_mem _ h1, h2, ?_⟩
      intro u hu hlt
      rcases List.mem_cons.1 hu with rfl | hu
      · exact c
      · exact h3 u hu hlt

/-! ### split positions -/

theorem next_tail {bs : List Blk} {x q b : Blk} (h : Next bs q b) : Next (x :: bs) q b := by
  obtain ⟨p, r, rfl⟩ := h; exact ⟨x :: p, r, rfl⟩

theorem mem_of_next {bs : List Blk} {q b : Blk} (h : Next bs q b) : q ∈ bs ∧ b ∈ bs := by
  obtain ⟨p, r, rfl⟩ := h; simp

theorem beforeBranch_le {q : Blk} {p : Int} (h : beforeBranch q = some p) :
    (q.succs = 1 ∧ p = q.last - 1) ∨ (q.succs = 2 ∧ p = q.last - 3) := by
  rw [beforeBranch] at h
  by_cases c : q.succs = 1
  · rw [if_pos c] at h; simp at h; exact .inl ⟨c, h.symm⟩
  · rw [if_neg c] at h
    by_cases c2 : q.succs = 2
    · rw [if_pos c2] at h; simp at h; exact .inr ⟨c2, h.symm⟩
    · rw [if_neg c2] at h; cases h

/-- What the first loop finds, on a reversed prefix. -/
theorem labelSplit_some {before : Int} {xs post : List Blk} {p : Int}
    (h : labelSplit before xs = some (some p)) :
    ∃ q b, Next (xs.reverse ++ post) q b ∧ (b.label = before ∨ b.label = before - 1) ∧
      beforeBranch q = some p := by
  induction xs generalizing post with
  | nil => cases h
  | cons b bs ih =>
    rw [labelSplit.eq_def] at h
    simp only at h
    by_cases c : b.label = before ∨ b.label = before - 1
    · rw [if_pos c] at h
      cases bs with
      | nil => cases h
      | cons q qs =>
        simp only [Option.map_eq_some_iff] at h
        obtain ⟨p', e, h⟩ := h
        cases h
        exact ⟨q, b, ⟨qs.reverse, post, by simp⟩, c, e⟩
    · rw [if_neg c] at h
      obtain ⟨q, b', h1, h2⟩ := ih (post := b :: post) h
      exact ⟨q, b', by simpa using h1, h2⟩

theorem labelSplit_none {before : Int} {xs : List Blk} (h : labelSplit before xs = some none) :
    ∀ b ∈ xs, b.label ≠ before ∧ b.label ≠ before - 1 := by
  induction xs with
  | nil => intro b hb; cases hb
  | cons b bs ih =>
    rw [labelSplit.eq_def] at h
    simp only at h
    by_cases c : b.label = before ∨ b.label = before - 1
    · rw [if_pos c] at h
      cases bs with
      | nil => cases h
      | cons q qs => simp at h
    · rw [if_neg c] at h
      intro x hx
      rcases List.mem_cons.1 hx with rfl | hx
      · omega
      · exact ih h x hx

theorem outside_lt {fu before p : Int} {xs : List Blk} (h : outside fu before xs = some (some p)) :
    p < before := by
  induction xs with
  | nil => cases h
  | cons b bs ih =>
    rw [outside] at h
    split at h
    · exact ih h
    · split at h
      · exact ih h
      · split at h
        · exact ih h
        · split at h
          · cases h
          · split at h
            · cases h; omega
            · exact ih h

theorem loopSplit_lt {cf : Bool} {fu before p : Int} {xs : List Blk}
    (h : loopSplit cf fu before xs = some p) : p < before := by
  induction xs with
  | nil => rw [loopSplit] at h; cases h; omega
  | cons b bs ih =>
    rw [loopSplit] at h
    split at h
    · split at h
      · cases h; omega
      · split at h
        · cases h; omega
        · split at h
          · cases h
          · cases h; omega
          · rename_i hq
            cases h
            exact outside_lt hq
    · exact ih h

theorem loopSplit_noHoist {fu before p : Int} {xs : List Blk}
    (hno : ∀ b ∈ xs, b.depth = 0 ∨ (b.index ≥ 0 ∧ b.hasCall = true))
    (h : loopSplit false fu before xs = some p) : p = before - 1 := by
  induction xs with
  | nil => rw [loopSplit] at h; cases h; rfl
  | cons b bs ih =>
    rw [loopSplit] at h
    split at h
    · split at h
      · cases h; rfl
      · rename_i hd
        rcases hno b (List.mem_cons_self ..) with h1 | h1
        · exact absurd h1 hd
        · rw [if_pos ⟨h1.1, rfl, h1.2⟩] at h; cases h; rfl
    · exact ih (fun x hx => hno x (List.mem_cons_of_mem _ hx)) h

theorem optimalSplit_lt {bs : List Blk} (hb : Numbered bs) {iv : Iv} {before p : Int}
    (h : optimalSplit bs iv before = some p) : p < before := by
  rw [optimalSplit] at h
  split at h
  · cases h
  · rename_i q hq
    cases h
    obtain ⟨q, b, h1, h2, h3⟩ := labelSplit_some (post := []) hq
    rw [List.reverse_reverse, List.append_nil] at h1
    have := hb.grow q b h1
    rcases beforeBranch_le h3 with h3 | h3 <;> omega
  · split at h
    · cases h
    · split at h
      · cases h; omega
      · exact loopSplit_lt h

/-- Without hoisting: right before the position, or before the branches in front of a label. -/
theorem optimalSplit_cases {bs : List Blk} {iv : Iv} {before p : Int}
    (hno : ∀ b ∈ bs, b.depth = 0 ∨ (b.index ≥ 0 ∧ b.hasCall = true)) (hc : iv.constFloat = false)
    (h : optimalSplit bs iv before = some p) :
    (p = before - 1 ∧ ∀ b ∈ bs, b.label ≠ before ∧ b.label ≠ before - 1) ∨
    ∃ q b, Next bs q b ∧ (b.label = before ∨ b.label = before - 1) ∧
      ((q.succs = 1 ∧ p = q.last - 1) ∨ (q.succs = 2 ∧ p = q.last - 3)) := by
  rw [optimalSplit] at h
  split at h
  · cases h
  · rename_i q hq
    cases h
    obtain ⟨q, b, h1, h2, h3⟩ := labelSplit_some (post := []) hq
    rw [List.reverse_reverse, List.append_nil] at h1
    exact .inr ⟨q, b, h1, h2, beforeBranch_le h3⟩
  · rename_i hq
    have h0 := labelSplit_none hq
    simp only [List.mem_reverse] at h0
    left
    refine ⟨?_, h0⟩
    split at h
    · cases h
    · split at h
      · cases h; rfl
      · rw [hc] at h
        exact loopSplit_noHoist (by simpa using hno) h

/-- The second split of a victim does not go back behind the position it was taken at: `p1` is the
first split of `i` before `at_`, `u` a later use, `p2` the second split, before `u`. -/
theorem second_split {bs : List Blk} (hb : Numbered bs)
    (hno : ∀ b ∈ bs, b.depth = 0 ∨ (b.index ≥ 0 ∧ b.hasCall = true)) {i c : Iv}
    (hi : i.constFloat = false) (hc : c.constFloat = false) {at_ p1 p2 u : Int}
    (h1 : optimalSplit bs i at_ = some p1) (hu : NoGap bs u)
    (h2 : optimalSplit bs c u = some p2) (h12 : p1 < p2) : at_ ≤ p2 := by
  rcases optimalSplit_cases hno hi h1 with ⟨e, _⟩ | ⟨q, b, hn, hl, hp⟩
  · omega
  · have h3 := optimalSplit_lt hb h2
    rcases hu q b hn with g | g
    · have := hb.grow q b hn
      rcases hp with hp | hp <;> omega
    · rcases optimalSplit_cases hno hc h2 with ⟨e, _⟩ | ⟨q', b', hn', hl', hp'⟩
      · omega
      · have := hb.grow q' b' hn'
        rcases hu q' b' hn' with g' | g' <;> omega

/-! ### register choice -/

theorem mem_regIds {n r : Nat} : r ∈ regIds n ↔ 1 ≤ r ∧ r < n := by
  rw [regIds, List.mem_range'_1]; omega

theorem findFree_spec {n : Nat} {til frm : Int} {hint : Nat} {free : Nat → Int} {r : Nat}
    (h : findFree n til frm hint free = r) (h0 : r ≠ 0) :
    1 ≤ r ∧ r < n ∧ (free r ≥ til ∨ free r ≥ frm + 1) := by
  have key : ∀ (l : List Nat) (a : Nat × Nat),
      (a.1 ≠ 0 → a.1 ∈ regIds n ∧ free a.1 ≥ til) → (a.2 ≠ 0 → a.2 ∈ regIds n ∧ free a.2 ≥ frm + 1) →
      (∀ x ∈ l, x ∈ regIds n) →
      ((l.foldl (freeRound til frm hint free) a).1 ≠ 0 →
        (l.foldl (freeRound til frm hint free) a).1 ∈ regIds n ∧
        free (l.foldl (freeRound til frm hint free) a).1 ≥ til) ∧
      ((l.foldl (freeRound til frm hint free) a).2 ≠ 0 →
        (l.foldl (freeRound til frm hint free) a).2 ∈ regIds n ∧
        free (l.foldl (freeRound til frm hint free) a).2 ≥ frm + 1) := by
    intro l
    induction l with
    | nil => intro a h1 h2 _; exact ⟨h1, h2⟩
    | cons x l ih =>
      intro a h1 h2 h3
      have hx := h3 x (List.mem_cons_self ..)
      have h3' := fun y hy => h3 y (List.mem_cons_of_mem _ hy)
      rw [List.foldl_cons]
      apply ih _ _ _ h3'
      · rw [freeRound]
        split
        · split
          · intro _; exact ⟨hx, by assumption⟩
          · exact h1
        · split
          · split
            · exact h1
            · exact h1
          · exact h1
      · rw [freeRound]
        split
        · split
          · exact h2
          · exact h2
        · split
          · split
            · intro _; exact ⟨hx, by assumption⟩
            · exact h2
          · exact h2
  obtain ⟨k1, k2⟩ := key (regIds n) (0, 0) (by simp) (by simp) (fun x hx => hx)
  rw [findFree] at h
  split at h
  · rename_i hg
    rw [h] at k1
    obtain ⟨a, b⟩ := k1 h0
    rw [mem_regIds] at a
    exact ⟨a.1, a.2, .inl b⟩
  · rw [h] at k2
    obtain ⟨a, b⟩ := k2 h0
    rw [mem_regIds] at a
    exact ⟨a.1, a.2, .inr b⟩

theorem findBlock_spec {n : Nat} {frm : Int} {hint : Nat} {use : Nat → Int} {r : Nat}
    (h : findBlock n frm hint use = r) (h0 : r ≠ 0) : 1 ≤ r ∧ r < n ∧ use r > frm + 1 := by
  have key : ∀ (l : List Nat) (a : Nat), (a ≠ 0 → a ∈ regIds n ∧ use a > frm + 1) →
      (∀ x ∈ l, x ∈ regIds n) → (l.foldl (blockRound frm hint use) a ≠ 0 →
        l.foldl (blockRound frm hint use) a ∈ regIds n ∧
        use (l.foldl (blockRound frm hint use) a) > frm + 1) := by
    intro l
    induction l with
    | nil => intro a h1 _; exact h1
    | cons x l ih =>
      intro a h1 h3
      rw [List.foldl_cons]
      apply ih _ _ (fun y hy => h3 y (List.mem_cons_of_mem _ hy))
      rw [blockRound]
      split
      · exact h1
      · split
        · intro _; exact ⟨h3 x (List.mem_cons_self ..), by omega⟩
        · exact h1
  have := key (regIds n) 0 (by simp) (fun x hx => hx)
  rw [← findBlock, h] at this
  obtain ⟨a, b⟩ := this h0
  rw [mem_regIds] at a
  exact ⟨a.1, a.2, b⟩

/-! ### positions -/

theorem setPos_other {l : Nat → Int} {k r : Nat} {p : Int} (h : r ≠ k) : setPos l k p r = l r := by
  rw [setPos]; split
  · rfl
  · simp [h]

theorem setPos_le {l : Nat → Int} {k r : Nat} {p : Int} (hl : 0 ≤ l r) (hp : 0 ≤ p) :
    0 ≤ setPos l k p r ∧ setPos l k p r ≤ l r ∧ (r = k → setPos l k p r ≤ p) := by
  by_cases h : r = k
  · subst h
    rw [setPos]; split
    · omega
    · simp; omega
  · rw [setPos_other h]; exact ⟨hl, by omega, fun e => absurd e h⟩

theorem freeActive_spec {heap : Nat → Iv} {cur : Iv} {js : List Nat} {l : Nat → Int} {r : Nat}
    (hl : 0 ≤ l r) :
    0 ≤ freeActive heap cur l js r ∧ freeActive heap cur l js r ≤ l r ∧
    ∀ j ∈ js, (heap j).cls = cur.cls → (heap j).assigned = r → freeActive heap cur l js r ≤ 0 := by
  induction js generalizing l with
  | nil => exact ⟨hl, by simp [freeActive], by intro j hj; cases hj⟩
  | cons a js ih =>
    rw [freeActive]
    split
    · rename_i hc
      obtain ⟨h1, h2, h3⟩ := ih hl
      refine ⟨h1, h2, ?_⟩
      intro j hj c e
      rcases List.mem_cons.1 hj with rfl | hj
      · exact absurd c hc
      · exact h3 j hj c e
    · obtain ⟨k1, k2, k3⟩ := setPos_le (k := (heap a).assigned) (p := 0) hl (by omega)
      obtain ⟨h1, h2, h3⟩ := ih k1
      refine ⟨h1, by omega, ?_⟩
      intro j hj c e
      rcases List.mem_cons.1 hj with rfl | hj
      · have := k3 e.symm; omega
      · exact h3 j hj c e

theorem freeActive_other {heap : Nat → Iv} {cur : Iv} {js : List Nat} {l : Nat → Int} {r : Nat}
    (h : ∀ j ∈ js, (heap j).cls = cur.cls → (heap j).assigned ≠ r) :
    freeActive heap cur l js r = l r := by
  induction js generalizing l with
  | nil => rfl
  | cons a js ih =>
    have ih' := fun l => ih (l := l) (fun j hj => h j (List.mem_cons_of_mem _ hj))
    rw [freeActive]
    split
    · exact ih' _
    · rename_i hc
      rw [ih', setPos_other]
      exact fun e => h a (List.mem_cons_self ..) (by simpa using hc) e.symm

theorem avoidLabel_cases {p q : Int} {bs : List Ranges.Block} (h : Ranges.avoidLabel p bs = some q) :
    q = p ∨ ∃ b ∈ bs, q = b.last - 1 ∨ q = b.last - 3 := by
  induction bs with
  | nil => rw [Ranges.avoidLabel] at h; cases h; exact .inl rfl
  | cons b bs ih =>
    rw [Ranges.avoidLabel.eq_def] at h
    simp only at h
    split at h
    · cases h; exact .inl rfl
    · split at h
      · cases bs with
        | nil => cases h
        | cons c cs =>
          simp only at h
          split at h
          · cases h; exact .inr ⟨c, by simp, .inl rfl⟩
          · split at h
            · cases h; exact .inr ⟨c, by simp, .inr rfl⟩
            · cases h
      · rcases ih h with h | ⟨c, hc, h⟩
        · exact .inl h
        · exact .inr ⟨c, List.mem_cons_of_mem _ hc, h⟩

theorem ordered_base {bs : List Blk} (hb : Numbered bs) : Ranges.Ordered (bs.map Blk.base) := by
  have : ∀ q b, Next bs q b → q.last < b.label ∧ q.label < b.label := fun q b h =>
    ⟨(hb.grow q b h).1, (hb.grow q b h).2.1⟩
  clear hb
  induction bs with
  | nil => trivial
  | cons a bs ih =>
    cases bs with
    | nil => trivial
    | cons b bs =>
      obtain ⟨h1, h2⟩ := this a b ⟨[], bs, rfl⟩
      exact ⟨h1, h2, ih (fun q b' h => this q b' (next_tail h))⟩

theorem function_base {bs : List Blk} (hb : Numbered bs) {p : Int}
    (he : ∀ b, bs.head? = some b → b.label < p) : Ranges.Function (bs.map Blk.base) p := by
  refine ⟨ordered_base hb, ?_, ?_⟩
  · intro b h
    cases bs with
    | nil => cases h
    | cons a bs => simp at h; subst h; exact he a rfl
  · intro pre q b post h
    obtain ⟨l1, l2, e, e1, e2⟩ := List.map_eq_append_iff.1 h
    obtain ⟨x, l3, e3, e4, e5⟩ := List.map_eq_cons_iff.1 e2
    obtain ⟨y, l4, e6, e7, e8⟩ := List.map_eq_cons_iff.1 e5
    have := hb.grow x y ⟨l1, l4, by rw [e, e3, e6]⟩
    rw [← e4]
    exact this.2.2

/-- The position `interval_next_intersect` reports: positive, and below it the two intervals are
never both live. -/
theorem nextIntersect_spec {bs : List Blk} (hb : Numbered bs) {c s : List Range} {p : Int}
    (hc : Sorted c) (hcn : NonEmpty c) (hs : Sorted s) (hsn : NonEmpty s) (hpos : 0 < lo c)
    (he : ∀ b, bs.head? = some b → b.label < lo c)
    (h : nextIntersect (bs.map Blk.base) c s = some p) :
    0 < p ∧ ∀ q, q < p → ¬ (Covers c q ∧ Covers s q) := by
  cases c with
  | nil => simp [nextIntersect] at h
  | cons c cs =>
    cases s with
    | nil => simp [nextIntersect] at h
    | cons s ss =>
      have hsel : c.lo < (ss.getLastD s).hi := by
        rw [nextIntersect] at h
        split at h
        · cases h
        · rename_i hh; omega
      obtain ⟨r, e, hr⟩ := C38_free_below hc hcn hs hsn hpos hsel (function_base hb he)
      rw [e] at h
      cases h
      refine ⟨?_, hr⟩
      rw [nextIntersect, if_neg (by omega)] at e
      split at e
      · split at e
        · rcases avoidLabel_cases e with h | ⟨b, hb', h⟩
          · omega
          · rw [List.mem_reverse, List.mem_map] at hb'
            obtain ⟨a, ha, rfl⟩ := hb'
            have := hb.size a ha
            simp only [Blk.base] at h
            omega
        · cases e
      · rename_i q hq
        cases e
        have := (Ranges.C38_next_intersect hc hcn hs hsn hpos hsel (function_base hb he))
        obtain ⟨r', p', e', _, _, _⟩ := this
        have hlt : ∀ (clt : Int) (xs : List Range) q, Ranges.nextStart clt xs = .direct q → clt < q := by
          intro clt xs q h
          cases xs with
          | nil => cases h
          | cons x xs =>
            rw [Ranges.nextStart] at h
            split at h
            · cases h; omega
            · cases h
        have key : ∀ (q : Int) (n : Nat) (sfc : Int) (xs ys : List Range), xs.length + ys.length = n →
            Ranges.seek c.lo (cs.getLastD c).hi sfc xs ys = .direct q → (cs.getLastD c).hi < q := by
          intro q n
          induction n using Nat.strongRecOn with
          | ind n ih =>
            intro sfc xs ys hn h
            cases xs with
            | nil => rw [Ranges.seek.eq_def] at h; simp only at h; split at h <;> cases h
            | cons x xs =>
              cases ys with
              | nil => rw [Ranges.seek.eq_def] at h; simp only at h; split at h <;> cases h
              | cons y ys =>
                rw [Ranges.seek] at h
                split at h
                · cases h
                · split at h
                  · cases h
                  · split at h
                    · cases h
                    · split at h
                      · exact hlt _ _ _ h
                      · split at h
                        · exact ih _ (by simp at hn ⊢; omega) _ xs (y :: ys) rfl h
                        · exact ih _ (by simp at hn ⊢; omega) _ (x :: xs) ys rfl h
        have := key _ _ _ _ _ rfl hq
        have := last_ge hc c (List.mem_cons_self ..)
        have := hc.le
        simp only [lo] at hpos
        omega
      · cases e

theorem freeInactive_spec {bs : List Blk} (hb : Numbered bs) {heap : Nat → Iv} {cur : Iv}
    {js : List Nat} {l l' : Nat → Int} {r : Nat}
    (hc : Sorted cur.ranges) (hcn : NonEmpty cur.ranges) (hpos : 0 < lo cur.ranges)
    (he : ∀ b, bs.head? = some b → b.label < lo cur.ranges)
    (hjs : ∀ j ∈ js, Sorted (heap j).ranges ∧ NonEmpty (heap j).ranges)
    (h : freeInactive bs heap cur l js = some l') (hl : 0 ≤ l r) :
    0 ≤ l' r ∧ l' r ≤ l r ∧
    ∀ j ∈ js, (heap j).cls = cur.cls → (heap j).assigned = r →
      ∀ q, q < l' r → ¬ (Covers cur.ranges q ∧ Covers (heap j).ranges q) := by
  induction js generalizing l with
  | nil => rw [freeInactive] at h; cases h; exact ⟨hl, by omega, by intro j hj; cases hj⟩
  | cons a js ih =>
    have ih' := fun l => ih (l := l) (fun j hj => hjs j (List.mem_cons_of_mem _ hj))
    rw [freeInactive] at h
    split at h
    · rename_i hcl
      obtain ⟨h1, h2, h3⟩ := ih' _ h hl
      refine ⟨h1, h2, ?_⟩
      intro j hj c e
      rcases List.mem_cons.1 hj with rfl | hj
      · exact absurd c hcl
      · exact h3 j hj c e
    · split at h
      · cases h
      · rename_i p hp
        split at h
        · cases h
        · obtain ⟨s1, s2⟩ := hjs a (List.mem_cons_self ..)
          obtain ⟨p0, pf⟩ := nextIntersect_spec hb hc hcn s1 s2 hpos he hp
          obtain ⟨k1, k2, k3⟩ := setPos_le (k := (heap a).assigned) (p := p) hl (by omega)
          obtain ⟨h1, h2, h3⟩ := ih' _ h k1
          refine ⟨h1, by omega, ?_⟩
          intro j hj c e q hq
          rcases List.mem_cons.1 hj with rfl | hj
          · have := k3 e.symm
            exact pf q (by omega)
          · exact h3 j hj c e q hq

theorem freeInactive_other {bs : List Blk} {heap : Nat → Iv} {cur : Iv}
    {js : List Nat} {l l' : Nat → Int} {r : Nat}
    (h : freeInactive bs heap cur l js = some l')
    (hr : ∀ j ∈ js, (heap j).cls = cur.cls → (heap j).assigned ≠ r) : l' r = l r := by
  induction js generalizing l with
  | nil => rw [freeInactive] at h; cases h; rfl
  | cons a js ih =>
    have ih' := fun l => ih (l := l) (hr := fun j hj => hr j (List.mem_cons_of_mem _ hj))
    rw [freeInactive] at h
    split at h
    · exact ih' _ h
    · rename_i hcl
      split at h
      · cases h
      · split at h
        · cases h
        · rw [ih' _ h, setPos_other]
          exact fun e => hr a (List.mem_cons_self ..) (by simpa using hcl) e.symm

end Nature.Alloc
