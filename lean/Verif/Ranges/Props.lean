import Verif.Ranges.Seek
/-
C38: live ranges answer membership exactly.
-/
namespace Nature.Ranges

/-- C38, lookup: on any list of separated increasing ranges the two-directional search reports a
position iff it lies in a range, for definitions and for input operands. -/
theorem C38_covered {rs : List Range} (h : Sorted rs) (p : Int) :
    (covered rs p false = true ↔ Covers rs p) ∧ (covered rs p true = true ↔ CoversInput rs p) := by
  refine ⟨(covered_off h p false).trans ?_, (covered_off h p true).trans ?_⟩
  · exact coversOff_zero
  · exact coversOff_one

/-- C38 (partial), recording: for every history of recorded ranges and definitions that runs
backwards through the function, the variable is reported live at exactly the positions the history
makes live.  Missing: histories in which a range begins after the end of the first recorded range
(see `C38_gap_counterexample`). -/
theorem C38_history_partial {h : List Op} (hb : Backward h) :
    ∃ rs, build h = some rs ∧ Sorted rs ∧ ∀ p, covered rs p false = true ↔ live h p := by
  obtain ⟨rs, e, hs, _, hc⟩ := build_spec hb
  exact ⟨rs, e, hs, fun p => ((C38_covered hs p).1).trans (hc p)⟩

/-- The history of a variable defined at 12, used at 18 in the same block and live through the
blocks from 30 on. -/
example : Backward [.define 12, .range 10 18, .range 30 44, .range 40 50] := by
  refine ⟨?_, by omega, ?_, by omega, ?_, by omega, ?_, trivial⟩
  · intro l hl
    simp only [start, Option.some.injEq] at hl
    subst hl
    right
    intro q h1 h2
    left; omega
  all_goals intro l hl; simp [start] at hl
  all_goals omega

example : build [.define 12, .range 10 18, .range 30 44, .range 40 50]
    = some [⟨12, 18⟩, ⟨30, 50⟩] := by decide

/-- C38: whatever the order, a recorded range is never lost: every position of every recorded range
is reported live. -/
theorem C38_never_lost (hist : List (Int × Int)) (hle : ∀ x ∈ hist, x.1 ≤ x.2) :
    ∃ rs, build (hist.map fun x => .range x.1 x.2) = some rs ∧ Sorted rs ∧
      ∀ x ∈ hist, ∀ p, x.1 ≤ p → p < x.2 → covered rs p false = true := by
  suffices h : ∃ rs, build (hist.map fun x => .range x.1 x.2) = some rs ∧ Sorted rs ∧
      ∀ x ∈ hist, ∀ p, x.1 ≤ p → p < x.2 → Covers rs p by
    obtain ⟨rs, e, hs, hc⟩ := h
    exact ⟨rs, e, hs, fun x hx p h1 h2 => (C38_covered hs p).1.2 (hc x hx p h1 h2)⟩
  induction hist with
  | nil => exact ⟨[], rfl, trivial, by simp⟩
  | cons x hist ih =>
    obtain ⟨rs, e, hs, hc⟩ := ih (fun y hy => hle y (List.mem_cons_of_mem _ hy))
    obtain ⟨rs', e', hs', h1, _⟩ := addRange_spec hs (hle x (List.mem_cons_self ..))
    refine ⟨rs', by rw [List.map_cons, build, e]; exact e', hs', ?_⟩
    intro y hy p h2 h3
    rcases List.mem_cons.1 hy with rfl | hy
    · exact h1 p (.inl ⟨h2, h3⟩)
    · exact h1 p (.inr (hc y hy p h2 h3))

example : build ([(20, 30), (0, 10), (40, 50)].map fun x => .range x.1 x.2)
    = some [⟨0, 30⟩, ⟨40, 50⟩] := by decide

/-- The full statement fails: recording `[0, 10)` and then `[20, 30)` reports 15 live.  The
allocator records backwards, so it does not do this. -/
theorem C38_gap_counterexample :
    ∃ rs, build [.range 20 30, .range 0 10] = some rs ∧ covered rs 15 false = true ∧
      ¬ live [.range 20 30, .range 0 10] 15 := by
  refine ⟨[⟨0, 30⟩], by decide, by decide, ?_⟩
  simp [live]

/-- C38, splitting: a split strictly inside the interval gives the positions below the split point
to the left half and the rest to the right half, use positions up to the split point to the left
half and later ones to the right half, and asks for a move exactly when the variable is live at the
split point. -/
theorem C38_split {first : Range} {rest : List Range} {uses : List Int} {pos : Int}
    (h : Sorted (first :: rest)) (hu : uses.Pairwise (· ≤ ·)) (h1 : first.lo < pos)
    (h2 : pos < (rest.getLastD first).hi) :
    ∃ s, splitAt (first :: rest) uses pos = some s ∧ Sorted s.left ∧ Sorted s.right ∧
      s.left ≠ [] ∧ s.right ≠ [] ∧
      (∀ p, Covers s.left p ↔ Covers (first :: rest) p ∧ p < pos) ∧
      (∀ p, Covers s.right p ↔ Covers (first :: rest) p ∧ pos ≤ p) ∧
      s.usesL = uses.filter (· ≤ pos) ∧ s.usesR = uses.filter (fun u => ¬ u ≤ pos) ∧
      (s.needMov = true ↔ Covers (first :: rest) pos) := by
  obtain ⟨l, r, m, e, hl, hr, _, _, cl, cr, cm⟩ := splitRanges_spec (pos := pos) h
  refine ⟨⟨l, r, uses.filter (· ≤ pos), uses.filter (fun u => ¬ u ≤ pos), m⟩, ?_, hl, hr, ?_, ?_,
    cl, cr, rfl, rfl, cm⟩
  · rw [splitAt, if_neg (by omega), if_neg (by omega), e, splitUses_spec hu]
  · rintro rfl
    have e1 := e
    rw [splitRanges] at e1
    generalize splitRanges pos rest = t at e1
    simp only at e1
    by_cases h3 : first.hi ≤ pos
    · rw [if_pos h3] at e1
      simp at e1
    · rw [if_neg h3, if_neg (by omega)] at e1
      simp at e1
  · rintro rfl
    have hlast := last_mem first rest
    have hle := h.le_mem _ hlast
    generalize hx : rest.getLastD first = x at hlast hle h2
    by_cases h3 : x.lo ≤ pos
    · have : Covers ([] : List Range) pos := (cr pos).2 ⟨⟨x, hlast, h3, h2⟩, by omega⟩
      obtain ⟨_, hr, _⟩ := this; cases hr
    · by_cases h4 : x.lo < x.hi
      · have : Covers ([] : List Range) x.lo := (cr x.lo).2 ⟨⟨x, hlast, by omega, h4⟩, by omega⟩
        obtain ⟨_, hr, _⟩ := this; cases hr
      · have key : ∀ (rs : List Range) l m, splitRanges pos rs = (l, [], m) →
            ∀ y ∈ rs, y.hi ≤ pos := by
          intro rs
          induction rs with
          | nil => intro _ _ _ y hy; cases hy
          | cons a rs ih =>
            intro l m e y hy
            rw [splitRanges] at e
            generalize ht : splitRanges pos rs = t at e
            obtain ⟨l', r', m'⟩ := t
            simp only at e
            by_cases h5 : a.hi ≤ pos
            · rw [if_pos h5] at e
              simp only [Prod.mk.injEq] at e
              rcases List.mem_cons.1 hy with rfl | hy
              · exact h5
              · exact ih l' m' (by rw [ht, e.2.1]) y hy
            · rw [if_neg h5] at e
              by_cases h6 : a.lo ≥ pos
              · rw [if_pos h6] at e; simp at e
              · rw [if_neg h6] at e; simp at e
        have := key _ _ _ e x hlast
        omega

example : splitAt [⟨12, 18⟩, ⟨30, 50⟩] [12, 18, 40] 34
    = some ⟨[⟨12, 18⟩, ⟨30, 34⟩], [⟨34, 50⟩], [12, 18], [40], true⟩ := by decide
example : splitAt [⟨12, 18⟩, ⟨30, 50⟩] [12, 18, 40] 24
    = some ⟨[⟨12, 18⟩], [⟨30, 50⟩], [12, 18], [40], false⟩ := by decide

/-- C38, use positions: recorded in any order, the next use after a position is the least one. -/
theorem C38_next_use (hist : List Int) (a : Int) :
    let us := hist.foldl addUse []
    us.Pairwise (· ≤ ·) ∧ (∀ u, u ∈ us ↔ u ∈ hist) ∧
    ((∃ u ∈ hist, a < u) → Least (fun u => u ∈ hist ∧ a < u) (nextUse us a)) ∧
    ((¬ ∃ u ∈ hist, a < u) → nextUse us a = 0) := by
  have key : ∀ (us : List Int), us.Pairwise (· ≤ ·) → (hist.foldl addUse us).Pairwise (· ≤ ·) ∧
      ∀ u, u ∈ hist.foldl addUse us ↔ u ∈ hist ∨ u ∈ us := by
    induction hist with
    | nil => intro us h; exact ⟨h, by simp⟩
    | cons x hist ih =>
      intro us h
      obtain ⟨h1, h2⟩ := addUse_spec (p := x) h
      obtain ⟨h3, h4⟩ := ih _ h1
      refine ⟨h3, fun u => ?_⟩
      rw [List.foldl_cons, h4, h2, List.mem_cons]
      constructor
      · rintro (h | h | h) <;> simp [h]
      · rintro ((h | h) | h) <;> simp [h]
  obtain ⟨h1, h2⟩ := key [] .nil
  simp only [List.not_mem_nil, or_false] at h2
  refine ⟨h1, h2, ?_, ?_⟩
  · rintro ⟨u, hu, hau⟩
    exact (nextUse_spec h1 ⟨u, (h2 u).2 hu, hau⟩).congr fun q => by rw [h2]
  · intro h
    exact nextUse_none fun ⟨u, hu, hau⟩ => h ⟨u, (h2 u).1 hu, hau⟩

example : nextUse ([30, 12, 18].foldl addUse []) 12 = 18 := by decide

/-- C38: an interval counts as expired at a position exactly when none of its positions is there or
later. -/
theorem C38_expired {first : Range} {rest : List Range} (h : Sorted (first :: rest))
    (hn : NonEmpty (first :: rest)) (p : Int) :
    expired first rest p false = true ↔ ∀ q, Covers (first :: rest) q → q < p := by
  simp only [expired, Bool.false_eq_true, if_false, decide_eq_true_iff]
  constructor
  · rintro h1 q ⟨r, hr, hq⟩
    have := last_ge h r hr
    omega
  · intro h1
    have hlast := last_mem first rest
    have h2 := hn _ hlast
    have := h1 ((rest.getLastD first).hi - 1) ⟨_, hlast, by omega, by omega⟩
    omega

example : expired ⟨12, 18⟩ [⟨30, 50⟩] 50 false = true ∧ expired ⟨12, 18⟩ [⟨30, 50⟩] 20 false = false := by
  decide

/-- C38: two intervals count as intersecting exactly when the second is live somewhere between the
first position and the end of the first, holes of the first included. -/
theorem C38_is_intersect {cf : Range} {cr : List Range} {sf : Range} {sr : List Range}
    (hs : Sorted (sf :: sr)) (hc : Sorted (cf :: cr)) (hsel : (sr.getLastD sf).hi > cf.lo) :
    ∃ b, isIntersect cf cr sf sr = some b ∧
      (b = true ↔ ∃ p, cf.lo ≤ p ∧ p < (cr.getLastD cf).hi ∧ Covers (sf :: sr) p) := by
  refine ⟨_, by rw [isIntersect, if_neg (by omega)], ?_⟩
  rw [intersectLoop_iff hs]
  have h1 := last_ge hc cf (List.mem_cons_self ..)
  have h2 := hc.le
  constructor
  · rintro ⟨q, a, b, c⟩; exact ⟨q, a, by omega, c⟩
  · rintro ⟨q, a, b, c⟩; exact ⟨q, a, by omega, c⟩

example : isIntersect ⟨10, 14⟩ [⟨20, 30⟩] ⟨4, 6⟩ [⟨15, 17⟩] = some true := by decide +kernel

/-! ### next intersection -/

/-- Where an operation for position `p` can be inserted: `p` itself, or before the branches that end
the previous block when `p` is the label of a block. -/
def Clear (blocks : List Block) (p r : Int) : Prop :=
  ((∀ b ∈ blocks, b.label ≠ p) ∧ r = p) ∨
  ∃ pre q b post, blocks = pre ++ q :: b :: post ∧ b.label = p ∧
    ((q.succs = 1 ∧ r = q.last - 1) ∨ (q.succs = 2 ∧ r = q.last - 3))

/-- The blocks of a function in order: ids increase, the entry label comes before `start`, and
every block but the last ends in one or two branches. -/
def Function (blocks : List Block) (start : Int) : Prop :=
  Ordered blocks ∧ (∀ b, blocks.head? = some b → b.label < start) ∧
  ∀ pre q b post, blocks = pre ++ q :: b :: post → q.succs = 1 ∨ q.succs = 2

theorem Ordered.split {pre : List Block} {a b : Block} {post : List Block}
    (h : Ordered (pre ++ a :: b :: post)) : a.last < b.label ∧ a.label < b.label := by
  induction pre with
  | nil => exact ⟨h.1, h.2.1⟩
  | cons x xs ih =>
    apply ih
    cases xs with
    | nil => exact h.2.2
    | cons y ys => exact h.2.2

theorem Ordered.prefix {xs ys : List Block} (h : Ordered (xs ++ ys)) : Ordered xs := by
  induction xs with
  | nil => trivial
  | cons a xs ih =>
    cases xs with
    | nil => trivial
    | cons b xs => exact ⟨h.1, h.2.1, ih h.2.2⟩

theorem Ordered.last_label {xs : List Block} {b : Block} (h : Ordered (xs ++ [b])) :
    ∀ a ∈ xs, a.label < b.label := by
  induction xs with
  | nil => intro a ha; cases ha
  | cons x xs ih =>
    intro a ha
    cases xs with
    | nil => simp at ha; subst ha; exact h.2.1
    | cons y ys =>
      have h' : Ordered ((y :: ys) ++ [b]) := h.2.2
      rcases List.mem_cons.1 ha with rfl | ha
      · have h1 : a.label < y.label := h.2.1
        have := ih h' y (List.mem_cons_self ..)
        omega
      · exact ih h' a ha

theorem avoidLabel_spec {xs post : List Block} {start p : Int} (hf : Function (xs ++ post) start)
    (hp : start ≤ p) (hpost : ∀ b ∈ post, b.label ≠ p) :
    ∃ r, avoidLabel p xs.reverse = some r ∧ Clear (xs ++ post) p r := by
  generalize hn : xs.length = n
  induction n generalizing xs post with
  | zero =>
    have : xs = [] := List.length_eq_zero_iff.1 hn
    subst this
    exact ⟨p, rfl, .inl ⟨hpost, rfl⟩⟩
  | succ n ih =>
    rcases List.eq_nil_or_concat xs with rfl | ⟨ys, b, rfl⟩
    · simp at hn
    · have ho : Ordered (ys ++ [b]) := by
        rw [List.concat_eq_append] at hf; exact hf.1.prefix
      rw [List.concat_eq_append] at *
      rw [List.reverse_append, List.reverse_singleton, List.singleton_append, avoidLabel.eq_def]
      simp only
      by_cases h1 : b.label < p
      · rw [if_pos h1]
        refine ⟨p, rfl, .inl ⟨?_, rfl⟩⟩
        intro x hx
        rcases List.mem_append.1 hx with hx | hx
        · rcases List.mem_append.1 hx with hx | hx
          · have := ho.last_label x hx; omega
          · simp at hx; subst hx; omega
        · exact hpost x hx
      · rw [if_neg h1]
        by_cases h2 : b.label = p
        · rw [if_pos h2]
          rcases List.eq_nil_or_concat ys with rfl | ⟨zs, q, rfl⟩
          · have := hf.2.1 b (by simp)
            omega
          · rw [List.concat_eq_append, List.reverse_append, List.reverse_singleton,
              List.singleton_append]
            have e : zs.concat q ++ [b] ++ post = zs ++ q :: b :: post := by
              simp
            simp only
            rcases hf.2.2 zs q b post e with h3 | h3
            · rw [if_pos h3]
              exact ⟨_, rfl, .inr ⟨zs, q, b, post, by rw [← e, List.concat_eq_append], h2,
                .inl ⟨h3, rfl⟩⟩⟩
            · rw [if_neg (by omega), if_pos h3]
              exact ⟨_, rfl, .inr ⟨zs, q, b, post, by rw [← e, List.concat_eq_append], h2,
                .inr ⟨h3, rfl⟩⟩⟩
        · rw [if_neg h2]
          have e : ys ++ [b] ++ post = ys ++ (b :: post) := by simp
          rw [e]
          refine ih (by rw [← e]; exact hf) ?_ (by simp at hn; omega)
          intro x hx
          rcases List.mem_cons.1 hx with rfl | hx
          · exact h2
          · exact hpost x hx

theorem Clear.le {blocks : List Block} {p r : Int} (ho : Ordered blocks) (h : Clear blocks p r) :
    r ≤ p := by
  rcases h with ⟨_, rfl⟩ | ⟨pre, q, b, post, rfl, hb, h⟩
  · omega
  · have := ho.split; omega

/-- C38, next intersection: the reported position is, up to the move away from block labels, the
least position where both are live; when there is none, the least position after the end of
`current` where `select` is live; when there is none of those either, the least position after the
start of `current` where `select` is live. -/
theorem C38_next_intersect {blocks : List Block} {c : Range} {cs : List Range} {s : Range}
    {ss : List Range} (hc : Sorted (c :: cs)) (hcn : NonEmpty (c :: cs)) (hs : Sorted (s :: ss))
    (hsn : NonEmpty (s :: ss)) (hpos : 0 < c.lo) (hsel : c.lo < (ss.getLastD s).hi)
    (hf : Function blocks c.lo) :
    ∃ r p, nextIntersect blocks (c :: cs) (s :: ss) = some r ∧ (r = p ∨ Clear blocks p r) ∧
      ((∃ q, Covers (c :: cs) q ∧ Covers (s :: ss) q) → Clear blocks p r ∧
        Least (fun q => Covers (c :: cs) q ∧ Covers (s :: ss) q) p) ∧
      ((¬ ∃ q, Covers (c :: cs) q ∧ Covers (s :: ss) q) →
        ((∃ q, Covers (s :: ss) q ∧ (cs.getLastD c).hi < q) →
          Least (fun q => Covers (s :: ss) q ∧ (cs.getLastD c).hi < q) p) ∧
        ((¬ ∃ q, Covers (s :: ss) q ∧ (cs.getLastD c).hi < q) → Clear blocks p r ∧
          Least (fun q => Covers (s :: ss) q ∧ c.lo < q) p)) := by
  have hclt : ∀ x ∈ c :: cs, x.hi ≤ (cs.getLastD c).hi := last_ge hc
  have hcge : ∀ x ∈ c :: cs, c.lo ≤ x.lo := by
    intro x hx
    rcases List.mem_cons.1 hx with rfl | hx
    · omega
    · have := hc.lt x hx; have := hc.le; omega
  have hc0 := hcn c (List.mem_cons_self ..)
  have hcl := hclt c (List.mem_cons_self ..)
  have fin : ∀ p, c.lo ≤ p → ∃ r, avoidLabel p blocks.reverse = some r ∧ Clear blocks p r := by
    intro p hp
    have := avoidLabel_spec (xs := blocks) (post := []) (p := p) (start := c.lo)
      (by rw [List.append_nil]; exact hf) hp (by simp)
    rw [List.append_nil] at this
    exact this
  rw [nextIntersect]
  rw [if_neg (by omega)]
  by_cases h1 : ∃ q, Covers (c :: cs) q ∧ Covers (s :: ss) q
  · obtain ⟨p, e, hl⟩ := seek_common (cff := c.lo) (sfc := -1) hc hs hcn hsn hclt h1
    have hp : c.lo ≤ p := covers_ge hc hl.1.1
    obtain ⟨r, er, hr⟩ := fin p hp
    rw [e]
    simp only
    rw [if_pos (by omega)]
    exact ⟨r, p, er, .inr hr, fun _ => ⟨hr, hl⟩, fun h => absurd h1 h⟩
  · by_cases h2 : ∃ q, Covers (s :: ss) q ∧ (cs.getLastD c).hi < q
    · obtain ⟨p, e, hl⟩ := seek_after (cff := c.lo) (sfc := -1) hc hs hsn
        (fun x hx => ⟨hcn x hx, hclt x hx⟩) (by simp)
        (by
          intro x hx
          cases cs with
          | nil => simp at hx; subst hx; rfl
          | cons y ys =>
            rw [List.getLast?_cons_cons] at hx
            rw [List.getLastD_eq_getLast?, hx]; rfl) h1 h2
      have hp : c.lo ≤ p := by have := hl.1.2; omega
      rcases e with e | e
      · obtain ⟨r, er, hr⟩ := fin p hp
        rw [e]
        simp only
        rw [if_pos (by omega)]
        exact ⟨r, p, er, .inr hr, fun h => absurd h h1, fun _ => ⟨fun _ => hl, fun h => absurd h2 h⟩⟩
      · rw [e]
        exact ⟨p, p, rfl, .inl rfl, fun h => absurd h h1,
          fun _ => ⟨fun _ => hl, fun h => absurd h2 h⟩⟩
    · have hnc : ¬ Covers (s :: ss) c.lo := fun h =>
        h1 ⟨c.lo, ⟨c, List.mem_cons_self .., by omega, hc0⟩, h⟩
      have hex : ∃ q, Covers (s :: ss) q ∧ c.lo < q := by
        have hm := last_mem s ss
        have hn := hsn _ hm
        generalize ss.getLastD s = x at hm hn hsel
        refine ⟨x.hi - 1, ⟨x, hm, by omega, by omega⟩, ?_⟩
        by_cases h3 : c.lo < x.hi - 1
        · exact h3
        · exact absurd ⟨x, hm, by omega, hsel⟩ hnc
      obtain ⟨p, e, hl⟩ := (seek_first (cff := c.lo) (sfc := -1) (by omega) hc hs hsn
        (fun x hx => ⟨hcge x hx, hcn x hx, hclt x hx⟩) (.inl (by simp)) hnc h1 h2).2 rfl hex
      have hp : c.lo ≤ p := by have := hl.1.2; omega
      obtain ⟨r, er, hr⟩ := fin p hp
      rw [e]
      simp only
      rw [if_pos (by omega)]
      exact ⟨r, p, er, .inr hr, fun h => absurd h h1, fun _ => ⟨fun h => absurd h h2,
        fun _ => ⟨hr, hl⟩⟩⟩

/-- C38: below the reported position the two intervals never need the register at the same time. -/
theorem C38_free_below {blocks : List Block} {c : Range} {cs : List Range} {s : Range}
    {ss : List Range} (hc : Sorted (c :: cs)) (hcn : NonEmpty (c :: cs)) (hs : Sorted (s :: ss))
    (hsn : NonEmpty (s :: ss)) (hpos : 0 < c.lo) (hsel : c.lo < (ss.getLastD s).hi)
    (hf : Function blocks c.lo) :
    ∃ r, nextIntersect blocks (c :: cs) (s :: ss) = some r ∧
      ∀ q, q < r → ¬ (Covers (c :: cs) q ∧ Covers (s :: ss) q) := by
  obtain ⟨r, p, e, _, h1, _⟩ := C38_next_intersect hc hcn hs hsn hpos hsel hf
  refine ⟨r, e, fun q hq hcov => ?_⟩
  obtain ⟨h2, h3⟩ := h1 ⟨q, hcov⟩
  have := h2.le hf.1
  have := h3.2 q hcov
  omega

/-- A case with holes on both sides: the intervals meet at 40, which is the label of a block. -/
def demoBlocks : List Block := [⟨0, 18, 1⟩, ⟨20, 38, 2⟩, ⟨40, 60, 0⟩]

example : Function demoBlocks 12 := by
  refine ⟨⟨by decide, by decide, by decide, by decide, trivial⟩, ?_, ?_⟩
  · intro b hb; simp [demoBlocks] at hb; subst hb; decide
  · intro pre q b post h
    rcases pre with _ | ⟨x, pre⟩
    · simp [demoBlocks] at h; left; rw [← h.1]
    · rcases pre with _ | ⟨y, pre⟩
      · simp [demoBlocks] at h; right; rw [← h.2.1]
      · have := congrArg List.length h
        simp [demoBlocks] at this
        omega

example : nextIntersect demoBlocks [⟨12, 18⟩, ⟨30, 50⟩] [⟨4, 10⟩, ⟨20, 24⟩, ⟨40, 44⟩] = some 35 := by
  decide +kernel
example : nextIntersect demoBlocks [⟨12, 18⟩] [⟨4, 10⟩, ⟨18, 19⟩, ⟨30, 34⟩] = some 30 := by
  decide +kernel
example : nextIntersect demoBlocks [⟨12, 14⟩, ⟨30, 34⟩] [⟨4, 10⟩, ⟨18, 19⟩] = some 18 := by
  decide +kernel

end Nature.Ranges
