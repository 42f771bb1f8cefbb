import Verif.Ranges.Spec
namespace Nature.Ranges

def CoversOff (off : Int) (rs : List Range) (p : Int) : Prop := ∃ r ∈ rs, r.lo ≤ p ∧ p < r.hi + off

theorem Sorted.tail {r rs} (h : Sorted (r :: rs)) : Sorted rs := by
  cases rs with
  | nil => trivial
  | cons s rs => exact h.2.2

theorem Sorted.le {r rs} (h : Sorted (r :: rs)) : r.lo ≤ r.hi := by
  cases rs with
  | nil => exact h
  | cons s rs => exact h.1

theorem Sorted.le_mem {rs} (h : Sorted rs) : ∀ r ∈ rs, r.lo ≤ r.hi := by
  induction rs with
  | nil => intro r hr; cases hr
  | cons s rs ih =>
    intro r hr
    rcases List.mem_cons.1 hr with rfl | hr
    · exact h.le
    · exact ih h.tail r hr

theorem Sorted.lt {r rs} (h : Sorted (r :: rs)) : ∀ s ∈ rs, r.hi < s.lo := by
  induction rs generalizing r with
  | nil => intro s hs; cases hs
  | cons t rs ih =>
    intro s hs
    rcases List.mem_cons.1 hs with rfl | hs
    · exact h.2.1
    · have h1 := ih h.tail s hs
      have h2 := h.2.1
      have h3 := h.tail.le
      omega

theorem Sorted.cons {r rs} (h1 : r.lo ≤ r.hi) (h2 : ∀ s ∈ rs, r.hi < s.lo) (h3 : Sorted rs) :
    Sorted (r :: rs) := by
  cases rs with
  | nil => exact h1
  | cons s rs => exact ⟨h1, h2 s (List.mem_cons_self ..), h3⟩

theorem Sorted.pairwise {rs} (h : Sorted rs) : rs.Pairwise (fun a b => a.hi < b.lo) := by
  induction rs with
  | nil => exact .nil
  | cons r rs ih => exact .cons h.lt (ih h.tail)

theorem last_mem (first : Range) (rest : List Range) : rest.getLastD first ∈ first :: rest := by
  cases rest with
  | nil => simp
  | cons r rs =>
    rw [List.getLastD_cons, List.getLastD_eq_getLast?]
    cases h : rs.getLast? with
    | none => simp
    | some x =>
      have := List.mem_of_getLast? h
      simp [this]

theorem last_ge {first rest} (h : Sorted (first :: rest)) :
    ∀ r ∈ first :: rest, r.hi ≤ (rest.getLastD first).hi := by
  induction rest generalizing first with
  | nil => intro r hr; simp at hr; subst hr; simp
  | cons s rs ih =>
    intro r hr
    rw [List.getLastD_cons]
    rcases List.mem_cons.1 hr with rfl | hr
    · have h1 := ih h.tail s (List.mem_cons_self ..)
      have h2 := h.2.1
      have h3 := h.tail.le
      omega
    · exact ih h.tail r hr

theorem scanFwd_iff {off p : Int} {rs} (h : Sorted rs) :
    scanFwd off p rs = true ↔ CoversOff off rs p := by
  induction rs with
  | nil => simp [scanFwd, CoversOff]
  | cons r rs ih =>
    rw [scanFwd]
    by_cases h1 : r.lo ≤ p ∧ p < r.hi + off
    · rw [if_pos h1]
      exact ⟨fun _ => ⟨r, List.mem_cons_self .., h1⟩, fun _ => rfl⟩
    · rw [if_neg h1]
      by_cases h2 : r.lo > p
      · rw [if_pos h2]
        refine ⟨fun h => (by cases h), ?_⟩
        rintro ⟨s, hs, h3, h4⟩
        rcases List.mem_cons.1 hs with rfl | hs
        · exact absurd ⟨h3, h4⟩ h1
        · have := h.lt s hs
          have := h.le
          omega
      · rw [if_neg h2, ih h.tail]
        constructor
        · rintro ⟨s, hs, h3⟩; exact ⟨s, List.mem_cons_of_mem _ hs, h3⟩
        · rintro ⟨s, hs, h3⟩
          rcases List.mem_cons.1 hs with rfl | hs
          · exact absurd h3 h1
          · exact ⟨s, hs, h3⟩

theorem scanBack_iff {off p : Int} {rs : List Range} (h : rs.Pairwise (fun a b => b.hi < a.lo))
    (hle : ∀ r ∈ rs, r.lo ≤ r.hi) :
    scanBack off p rs = true ↔ CoversOff off rs p := by
  induction rs with
  | nil => simp [scanBack, CoversOff]
  | cons r rs ih =>
    rw [List.pairwise_cons] at h
    rw [scanBack]
    by_cases h1 : r.lo ≤ p ∧ p < r.hi + off
    · rw [if_pos h1]
      exact ⟨fun _ => ⟨r, List.mem_cons_self .., h1⟩, fun _ => rfl⟩
    · rw [if_neg h1]
      by_cases h2 : r.hi + off ≤ p
      · rw [if_pos h2]
        refine ⟨fun h => (by cases h), ?_⟩
        rintro ⟨s, hs, h3, h4⟩
        rcases List.mem_cons.1 hs with rfl | hs
        · exact absurd ⟨h3, h4⟩ h1
        · have := h.1 s hs
          have := hle r (List.mem_cons_self ..)
          omega
      · rw [if_neg h2, ih h.2 (fun r hr => hle r (List.mem_cons_of_mem _ hr))]
        constructor
        · rintro ⟨s, hs, h3⟩; exact ⟨s, List.mem_cons_of_mem _ hs, h3⟩
        · rintro ⟨s, hs, h3⟩
          rcases List.mem_cons.1 hs with rfl | hs
          · exact absurd h3 h1
          · exact ⟨s, hs, h3⟩

theorem covered_off {rs} (h : Sorted rs) (p : Int) (b : Bool) :
    covered rs p b = true ↔ CoversOff (if b then 1 else 0) rs p := by
  cases rs with
  | nil => simp [covered, CoversOff]
  | cons first rest =>
    simp only [covered]
    generalize hoff : (if b = true then (1 : Int) else 0) = off
    by_cases h1 : p > (rest.getLastD first).hi + off ∨ p < first.lo
    · rw [if_pos h1]
      refine ⟨fun h => (by cases h), ?_⟩
      rintro ⟨s, hs, h3, h4⟩
      have h5 := last_ge h s hs
      have h6 : first.lo ≤ s.lo := by
        rcases List.mem_cons.1 hs with rfl | hs
        · omega
        · have := h.lt s hs
          have := h.le
          omega
      omega
    · rw [if_neg h1]
      by_cases h2 : rest = []
      · rw [if_pos h2]
        subst h2
        simp [CoversOff]
      · rw [if_neg h2]
        by_cases h3 : p - first.lo > ((rest.getLastD first).hi - first.lo) / 2
        · rw [if_pos h3]
          rw [scanBack_iff (List.pairwise_reverse.2 h.pairwise)
            (fun r hr => h.le_mem r (List.mem_reverse.1 hr))]
          unfold CoversOff
          constructor
          · rintro ⟨r, hr, hc⟩; exact ⟨r, List.mem_reverse.1 hr, hc⟩
          · rintro ⟨r, hr, hc⟩; exact ⟨r, List.mem_reverse.2 hr, hc⟩
        · rw [if_neg h3, scanFwd_iff h]

theorem coversOff_zero {rs p} : CoversOff 0 rs p ↔ Covers rs p := by
  simp [CoversOff, Covers]

theorem coversOff_one {rs p} : CoversOff 1 rs p ↔ CoversInput rs p := by
  simp [CoversOff, CoversInput, Int.lt_add_one_iff]

/-! ### recording -/

theorem absorb_spec {t hi : Int} {rs : List Range} (hs : Sorted rs) (hhi : t ≤ hi)
    (hlt : hi = t ∨ ∀ r ∈ rs, hi < r.lo) :
    ∃ hi' rs', absorb t hi rs = (hi', rs') ∧ hi ≤ hi' ∧ Sorted rs' ∧ (∀ r ∈ rs', hi' < r.lo) ∧
      (∀ lo p, lo ≤ t → (∀ r ∈ rs, lo ≤ r.lo) → (((lo ≤ p ∧ p < hi') ∨ Covers rs' p) ↔ ((lo ≤ p ∧ p < hi) ∨
        (∃ r ∈ rs, r.lo ≤ p ∧ p < r.hi)))) := by
  induction rs generalizing hi with
  | nil => exact ⟨hi, [], rfl, by omega, trivial, by simp, by simp [Covers]⟩
  | cons r rs ih =>
    rw [absorb]
    by_cases h1 : r.lo ≤ t
    · rw [if_pos h1]
      have hle := hs.le
      have hht : hi = t := by
        rcases hlt with h | h
        · exact h
        · have := h r (List.mem_cons_self ..); omega
      subst hht
      generalize hm : (if r.hi > hi then r.hi else hi) = m
      have hm1 : hi ≤ m ∧ r.hi ≤ m ∧ (m = hi ∨ m = r.hi) := by
        subst hm; by_cases h : r.hi > hi
        · rw [if_pos h]; omega
        · rw [if_neg h]; omega
      obtain ⟨hi', rs', e, h2, h3, h4, h5⟩ := ih (hi := m) hs.tail (by omega) (by
        rcases hm1.2.2 with h | h
        · exact .inl h
        · right; intro s hs'; have := hs.lt s hs'; omega)
      refine ⟨hi', rs', e, by omega, h3, h4, ?_⟩
      intro lo p hlo hall
      rw [h5 lo p hlo (fun s hs' => hall s (List.mem_cons_of_mem _ hs'))]
      constructor
      · rintro (⟨a, b⟩ | ⟨s, hs', hc⟩)
        · by_cases h : p < hi
          · exact .inl ⟨a, h⟩
          · right; exact ⟨r, List.mem_cons_self .., by omega, by omega⟩
        · exact .inr ⟨s, List.mem_cons_of_mem _ hs', hc⟩
      · rintro (⟨a, b⟩ | ⟨s, hs', hc⟩)
        · exact .inl ⟨a, by omega⟩
        · rcases List.mem_cons.1 hs' with rfl | hs'
          · by_cases h : lo ≤ p
            · left; exact ⟨h, by omega⟩
            · have := hall s (List.mem_cons_self ..); omega
          · exact .inr ⟨s, hs', hc⟩
    · rw [if_neg h1]
      refine ⟨hi, r :: rs, rfl, by omega, hs, ?_, ?_⟩
      · intro s hs'
        rcases hlt with h | h
        · rcases List.mem_cons.1 hs' with rfl | hs''
          · omega
          · have := hs.lt s hs''; have := hs.le; omega
        · exact h s hs'
      · intro lo p _ _; rfl

/-- Recording keeps the order, and adds exactly the range when the range does not lie beyond the
first one; in any case it adds at least the range. -/
theorem addRange_spec {rs : List Range} {f t : Int} (hs : Sorted rs) (hft : f ≤ t) :
    ∃ rs', addRange rs f t = some rs' ∧ Sorted rs' ∧
      (∀ p, (f ≤ p ∧ p < t) ∨ Covers rs p → Covers rs' p) ∧
      (∃ r, rs'.head? = some r ∧ (r.lo = f ∨ (rs.head?.map (·.lo) = some r.lo ∧ r.lo ≤ f))) ∧
      ((∀ r, rs.head? = some r → f ≤ r.hi) →
        ∀ p, Covers rs' p ↔ (f ≤ p ∧ p < t) ∨ Covers rs p) := by
  rw [addRange.eq_def, if_neg (by omega)]
  cases rs with
  | nil =>
    refine ⟨_, rfl, hft, ?_, ⟨_, rfl, .inl rfl⟩, ?_⟩
    · intro p; simp [Covers]
    · intro _ p; simp [Covers]
  | cons first rest =>
    have hle := hs.le
    by_cases h1 : first.lo ≤ t
    · simp only [h1, if_true]
      generalize hlo : (if f < first.lo then f else first.lo) = lo
      have hlo1 : lo ≤ f ∧ lo ≤ first.lo ∧ (lo = f ∨ lo = first.lo) := by
        subst hlo; by_cases h : f < first.lo
        · rw [if_pos h]; omega
        · rw [if_neg h]; omega
      by_cases h2 : t > first.hi
      · rw [if_pos h2]
        obtain ⟨hi', rs', e, h3, h4, h5, h6⟩ := absorb_spec (t := t) (hi := t) hs.tail (by omega)
          (.inl rfl)
        rw [e]
        have hcov : ∀ p, Covers (⟨lo, hi'⟩ :: rs') p ↔ ((lo ≤ p ∧ p < t) ∨
            (∃ r ∈ rest, r.lo ≤ p ∧ p < r.hi)) := by
          intro p
          rw [← h6 lo p (by omega) (by intro r hr; have := hs.lt r hr; omega)]
          simp [Covers]
        refine ⟨_, rfl, Sorted.cons (by simp only; omega) h5 h4, ?_, ⟨_, rfl, ?_⟩, ?_⟩
        · intro p hp
          rw [hcov]
          rcases hp with hp | ⟨r, hr, hp⟩
          · left; omega
          · rcases List.mem_cons.1 hr with rfl | hr
            · left; omega
            · exact .inr ⟨r, hr, hp⟩
        · rcases hlo1.2.2 with h | h
          · exact .inl h
          · right; exact ⟨by simp [h], by simp only; omega⟩
        · intro hf p
          have hf := hf first rfl
          rw [hcov]
          constructor
          · rintro (h | ⟨r, hr, hp⟩)
            · by_cases h' : p < f
              · right; exact ⟨first, List.mem_cons_self .., by omega, by omega⟩
              · left; omega
            · right; exact ⟨r, List.mem_cons_of_mem _ hr, hp⟩
          · rintro (h | ⟨r, hr, hp⟩)
            · left; omega
            · rcases List.mem_cons.1 hr with rfl | hr
              · left; omega
              · right; exact ⟨r, hr, hp⟩
      · rw [if_neg h2]
        have hcov : ∀ p, Covers (⟨lo, first.hi⟩ :: rest) p ↔
            (f ≤ p ∧ p < t) ∨ Covers (first :: rest) p := by
          intro p
          constructor
          · rintro ⟨r, hr, hp⟩
            rcases List.mem_cons.1 hr with rfl | hr
            · simp only at hp
              by_cases h : first.lo ≤ p
              · right; exact ⟨first, List.mem_cons_self .., h, hp.2⟩
              · left; omega
            · right; exact ⟨r, List.mem_cons_of_mem _ hr, hp⟩
          · rintro (h | ⟨r, hr, hp⟩)
            · exact ⟨_, List.mem_cons_self .., by simp only; omega, by simp only; omega⟩
            · rcases List.mem_cons.1 hr with rfl | hr
              · exact ⟨_, List.mem_cons_self .., by simp only; omega, by simp only; omega⟩
              · exact ⟨r, List.mem_cons_of_mem _ hr, hp⟩
        refine ⟨_, rfl, Sorted.cons (by simp only; omega) hs.lt hs.tail, fun p h => (hcov p).2 h,
          ⟨_, rfl, ?_⟩, fun _ => hcov⟩
        rcases hlo1.2.2 with h | h
        · exact .inl h
        · right; exact ⟨by simp [h], by simp only; omega⟩
    · simp only [h1, if_false]
      have hcov : ∀ p, Covers (⟨f, t⟩ :: first :: rest) p ↔
            (f ≤ p ∧ p < t) ∨ Covers (first :: rest) p := by
        intro p; simp [Covers]
      refine ⟨_, rfl, ⟨hft, by simp only; omega, hs⟩, fun p h => (hcov p).2 h, ⟨_, rfl, .inl rfl⟩,
        fun _ => hcov⟩

theorem define_spec {rs : List Range} {d : Int} (hs : Sorted rs)
    (hd : ∀ r, rs.head? = some r → d ≤ r.lo ∨ ∀ q, r.lo ≤ q → q ≤ d → Covers rs q) :
    ∃ rs', define rs d = some rs' ∧ Sorted rs' ∧ (∃ r, rs'.head? = some r ∧ r.lo = d) ∧
      ∀ p, Covers rs' p ↔ p = d ∨ (d ≤ p ∧ Covers rs p) := by
  cases rs with
  | nil =>
    refine ⟨[⟨d, d + 1⟩], ?_, ?_, ⟨_, rfl, rfl⟩, ?_⟩
    · rw [define, addRange, if_neg (by omega)]
    · show d ≤ d + 1
      omega
    · intro p; simp only [Covers, List.mem_singleton, exists_eq_left]; simp; omega
  | cons first rest =>
    have hle := hs.le
    have hge : ∀ p, Covers (first :: rest) p → first.lo ≤ p := by
      rintro p ⟨r, hr, hp⟩
      rcases List.mem_cons.1 hr with rfl | hr
      · exact hp.1
      · have := hs.lt r hr; omega
    rw [define]
    by_cases h1 : first.lo < d
    · rw [if_pos h1]
      have hc : d < first.hi := by
        have h2 := (hd first rfl).resolve_left (by omega)
        by_cases h3 : first.hi ≤ d
        · by_cases h4 : first.lo ≤ first.hi
          · obtain ⟨r, hr, hp⟩ := h2 first.hi h4 h3
            rcases List.mem_cons.1 hr with rfl | hr
            · omega
            · have := hs.lt r hr; omega
          · omega
        · omega
      refine ⟨_, rfl, Sorted.cons (by simp only; omega) hs.lt hs.tail, ⟨_, rfl, rfl⟩, ?_⟩
      intro p
      constructor
      · rintro ⟨r, hr, hp⟩
        rcases List.mem_cons.1 hr with rfl | hr
        · simp only at hp
          right; exact ⟨hp.1, first, List.mem_cons_self .., by omega, hp.2⟩
        · have := hs.lt r hr
          right; exact ⟨by omega, r, List.mem_cons_of_mem _ hr, hp⟩
      · rintro (rfl | ⟨h, r, hr, hp⟩)
        · exact ⟨_, List.mem_cons_self .., by simp, hc⟩
        · rcases List.mem_cons.1 hr with rfl | hr
          · exact ⟨_, List.mem_cons_self .., h, hp.2⟩
          · exact ⟨r, List.mem_cons_of_mem _ hr, hp⟩
    · rw [if_neg h1]
      obtain ⟨rs', e, h2, _, ⟨r, h3, h4⟩, h5⟩ := addRange_spec (f := d) (t := d + 1) hs (by omega)
      refine ⟨rs', e, h2, ⟨r, h3, ?_⟩, ?_⟩
      · rcases h4 with h | ⟨h, h'⟩
        · exact h
        · simp at h; omega
      · intro p
        rw [h5 (by intro r hr; simp at hr; subst hr; omega) p]
        constructor
        · rintro (h | h)
          · left; omega
          · right; exact ⟨by have := hge p h; omega, h⟩
        · rintro (h | h)
          · left; omega
          · exact .inr h.2

theorem build_spec {h : List Op} (hb : Backward h) :
    ∃ rs, build h = some rs ∧ Sorted rs ∧ (rs.head?.map (·.lo) = start h) ∧
      ∀ p, Covers rs p ↔ live h p := by
  induction h with
  | nil => exact ⟨[], rfl, trivial, rfl, by simp [Covers, live]⟩
  | cons o h ih =>
    cases o with
    | range f t =>
      obtain ⟨h1, h2, h3⟩ := hb
      obtain ⟨rs, e, hs, hh, hc⟩ := ih h3
      obtain ⟨rs', e', hs', _, ⟨r, hr, hlo⟩, hc'⟩ := addRange_spec hs h1
      have hfl : ∀ r, rs.head? = some r → f ≤ r.lo := by
        intro r hr; apply h2; rw [← hh, hr]; rfl
      refine ⟨rs', by rw [build, e]; exact e', hs', ?_, ?_⟩
      · rw [hr]
        simp only [start, Option.map_some, Option.some.injEq]
        rcases hlo with hlo | ⟨hlo, hlo'⟩
        · exact hlo
        · cases hrs : rs.head? with
          | none => rw [hrs] at hlo; cases hlo
          | some q =>
            rw [hrs] at hlo
            simp at hlo
            have := hfl q hrs
            omega
      · intro p
        rw [hc' (by
          intro q hq
          have := hfl q hq
          have := hs.le_mem q (List.mem_of_head? hq)
          omega) p, live, hc]
    | define d =>
      obtain ⟨h1, h3⟩ := hb
      obtain ⟨rs, e, hs, hh, hc⟩ := ih h3
      obtain ⟨rs', e', hs', ⟨r, hr, hlo⟩, hc'⟩ := define_spec (d := d) hs (by
        intro r hr
        rcases h1 r.lo (by rw [← hh, hr]; rfl) with h | h
        · exact .inl h
        · right; intro q a b; rw [hc]; exact h q a b)
      refine ⟨rs', by rw [build, e]; exact e', hs', ?_, ?_⟩
      · rw [hr]; simp [start, hlo]
      · intro p; rw [hc' p, live, hc]

/-! ### splitting -/

theorem splitRanges_spec {rs : List Range} {pos : Int} (hs : Sorted rs) :
    ∃ l r m, splitRanges pos rs = (l, r, m) ∧ Sorted l ∧ Sorted r ∧
      (∀ x ∈ l, x.hi ≤ pos ∧ ∃ y ∈ rs, y.lo = x.lo) ∧
      (∀ x ∈ r, pos ≤ x.lo ∧ ∃ y ∈ rs, y.lo ≤ x.lo) ∧
      (∀ p, Covers l p ↔ Covers rs p ∧ p < pos) ∧ (∀ p, Covers r p ↔ Covers rs p ∧ pos ≤ p) ∧
      (m = true ↔ Covers rs pos) := by
  induction rs with
  | nil => exact ⟨[], [], false, rfl, trivial, trivial, by simp, by simp, by simp [Covers],
      by simp [Covers], by simp [Covers]⟩
  | cons a rs ih =>
    obtain ⟨l, r, m, e, hl, hr, hl1, hr1, cl, cr, cm⟩ := ih hs.tail
    have hle := hs.le
    have hcons : ∀ (x : Range) xs p, Covers (x :: xs) p ↔ (x.lo ≤ p ∧ p < x.hi) ∨ Covers xs p := by
      intro x xs p; simp [Covers]
    have hcm : (decide (a.lo ≤ pos ∧ pos < a.hi) || m) = true ↔ Covers (a :: rs) pos := by
      rw [hcons, Bool.or_eq_true, cm, decide_eq_true_iff]
    have hrlt : ∀ x ∈ r, a.hi < x.lo := by
      intro x hx
      obtain ⟨_, y, hy, h⟩ := hr1 x hx
      have := hs.lt y hy
      omega
    have hllt : ∀ x ∈ l, a.hi < x.lo := by
      intro x hx
      obtain ⟨_, y, hy, h⟩ := hl1 x hx
      have := hs.lt y hy
      omega
    have hr2 : ∀ x ∈ r, pos ≤ x.lo ∧ ∃ y ∈ a :: rs, y.lo ≤ x.lo := by
      intro x hx
      obtain ⟨h, y, hy, h'⟩ := hr1 x hx
      exact ⟨h, y, List.mem_cons_of_mem _ hy, h'⟩
    have hl2 : ∀ x ∈ l, x.hi ≤ pos ∧ ∃ y ∈ a :: rs, y.lo = x.lo := by
      intro x hx
      obtain ⟨h, y, hy, h'⟩ := hl1 x hx
      exact ⟨h, y, List.mem_cons_of_mem _ hy, h'⟩
    have hge : ∀ p, Covers rs p → a.hi < p := by
      rintro p ⟨x, hx, hp⟩
      have := hs.lt x hx
      omega
    rw [splitRanges, e]
    simp only
    by_cases h1 : a.hi ≤ pos
    · rw [if_pos h1]
      refine ⟨_, _, _, rfl, Sorted.cons hle hllt hl, hr, ?_, hr2, ?_, ?_, hcm⟩
      · intro x hx
        rcases List.mem_cons.1 hx with rfl | hx
        · exact ⟨h1, x, List.mem_cons_self .., rfl⟩
        · exact hl2 x hx
      · intro p; rw [hcons, hcons, cl]
        constructor
        · rintro (h | h)
          · exact ⟨.inl h, by omega⟩
          · exact ⟨.inr h.1, h.2⟩
        · rintro ⟨h | h, h'⟩
          · exact .inl h
          · exact .inr ⟨h, h'⟩
      · intro p; rw [hcons, cr]
        constructor
        · intro h; exact ⟨.inr h.1, h.2⟩
        · rintro ⟨h | h, h'⟩
          · omega
          · exact ⟨h, h'⟩
    · rw [if_neg h1]
      by_cases h2 : a.lo ≥ pos
      · rw [if_pos h2]
        refine ⟨_, _, _, rfl, hl, Sorted.cons hle hrlt hr, hl2, ?_, ?_, ?_, hcm⟩
        · intro x hx
          rcases List.mem_cons.1 hx with rfl | hx
          · exact ⟨h2, x, List.mem_cons_self .., Int.le_refl _⟩
          · exact hr2 x hx
        · intro p; rw [hcons, cl]
          constructor
          · intro h; exact ⟨.inr h.1, h.2⟩
          · rintro ⟨h | h, h'⟩
            · omega
            · exact ⟨h, h'⟩
        · intro p; rw [hcons, hcons, cr]
          constructor
          · rintro (h | h)
            · exact ⟨.inl h, by omega⟩
            · exact ⟨.inr h.1, h.2⟩
          · rintro ⟨h | h, h'⟩
            · exact .inl h
            · exact .inr ⟨h, h'⟩
      · rw [if_neg h2]
        have hlnil : ∀ x ∈ l, False := by
          intro x hx
          have := hllt x hx
          have := (hl1 x hx).1
          have := hl.le_mem x hx
          omega
        refine ⟨_, _, _, rfl, Sorted.cons (by simp only; omega) (fun x hx => (hlnil x hx).elim) hl,
          Sorted.cons (by simp only; omega) hrlt hr, ?_, ?_, ?_, ?_, hcm⟩
        · intro x hx
          rcases List.mem_cons.1 hx with rfl | hx
          · exact ⟨Int.le_refl _, a, List.mem_cons_self .., rfl⟩
          · exact hl2 x hx
        · intro x hx
          rcases List.mem_cons.1 hx with rfl | hx
          · exact ⟨Int.le_refl _, a, List.mem_cons_self .., by simp only; omega⟩
          · exact hr2 x hx
        · intro p; rw [hcons, hcons, cl]
          constructor
          · rintro (h | h)
            · simp only at h; exact ⟨.inl (by omega), by omega⟩
            · exact ⟨.inr h.1, h.2⟩
          · rintro ⟨h | h, h'⟩
            · left; simp only; omega
            · exact .inr ⟨h, h'⟩
        · intro p; rw [hcons, hcons, cr]
          constructor
          · rintro (h | h)
            · simp only at h; exact ⟨.inl (by omega), by omega⟩
            · exact ⟨.inr h.1, h.2⟩
          · rintro ⟨h | h, h'⟩
            · left; simp only; omega
            · exact .inr ⟨h, h'⟩

theorem splitUses_spec {us : List Int} {pos : Int} (hs : us.Pairwise (· ≤ ·)) :
    splitUses pos us = (us.filter (· ≤ pos), us.filter (¬ · ≤ pos)) := by
  induction us with
  | nil => rfl
  | cons u us ih =>
    rw [List.pairwise_cons] at hs
    rw [splitUses]
    by_cases h : u ≤ pos
    · rw [if_pos h, ih hs.2]
      simp [h]
    · rw [if_neg h]
      have h1 : us.filter (· ≤ pos) = [] := by
        rw [List.filter_eq_nil_iff]; intro x hx; have := hs.1 x hx; simp; omega
      have h2 : us.filter (¬ · ≤ pos) = us := by
        rw [List.filter_eq_self]; intro x hx; have := hs.1 x hx; simp; omega
      simp only [List.filter_cons, h1, h2]
      simp [h]

theorem addUse_spec {us : List Int} {p : Int} (hs : us.Pairwise (· ≤ ·)) :
    (addUse us p).Pairwise (· ≤ ·) ∧ ∀ q, q ∈ addUse us p ↔ q = p ∨ q ∈ us := by
  induction us with
  | nil => simp [addUse]
  | cons u us ih =>
    rw [List.pairwise_cons] at hs
    obtain ⟨h1, h2⟩ := ih hs.2
    rw [addUse]
    by_cases h : u < p
    · rw [if_pos h, List.pairwise_cons]
      refine ⟨⟨?_, h1⟩, ?_⟩
      · intro q hq
        rcases (h2 q).1 hq with rfl | hq
        · omega
        · exact hs.1 q hq
      · intro q; simp only [List.mem_cons, h2]; constructor
        · rintro (h | h | h) <;> simp [h]
        · rintro (h | h | h) <;> simp [h]
    · rw [if_neg h, List.pairwise_cons]
      refine ⟨⟨?_, List.pairwise_cons.2 hs⟩, by simp⟩
      intro q hq
      rcases List.mem_cons.1 hq with rfl | hq
      · omega
      · have := hs.1 q hq; omega

theorem nextUse_spec {us : List Int} {a : Int} (hs : us.Pairwise (· ≤ ·)) :
    (∃ u ∈ us, a < u) → Least (fun u => u ∈ us ∧ a < u) (nextUse us a) := by
  induction us with
  | nil => rintro ⟨u, hu, _⟩; cases hu
  | cons u us ih =>
    rw [List.pairwise_cons] at hs
    rintro ⟨v, hv, hav⟩
    rw [nextUse]
    by_cases h : u > a
    · rw [if_pos h]
      refine ⟨⟨List.mem_cons_self .., h⟩, ?_⟩
      rintro q ⟨hq, _⟩
      rcases List.mem_cons.1 hq with rfl | hq
      · exact Int.le_refl _
      · exact hs.1 q hq
    · rw [if_neg h]
      have hv' : v ∈ us := by
        rcases List.mem_cons.1 hv with rfl | hv
        · omega
        · exact hv
      obtain ⟨h1, h2⟩ := ih hs.2 ⟨v, hv', hav⟩
      refine ⟨⟨List.mem_cons_of_mem _ h1.1, h1.2⟩, ?_⟩
      rintro q ⟨hq, hq'⟩
      rcases List.mem_cons.1 hq with rfl | hq
      · omega
      · exact h2 q ⟨hq, hq'⟩

theorem nextUse_none {us : List Int} {a : Int} (h : ¬ ∃ u ∈ us, a < u) : nextUse us a = 0 := by
  induction us with
  | nil => rfl
  | cons u us ih =>
    rw [nextUse, if_neg (fun h' => h ⟨u, List.mem_cons_self .., h'⟩)]
    exact ih (fun ⟨v, hv, h'⟩ => h ⟨v, List.mem_cons_of_mem _ hv, h'⟩)

theorem intersectLoop_iff {sel : List Range} (hs : Sorted sel) (n : Nat) (p : Int) :
    intersectLoop sel n p = true ↔ ∃ q, p ≤ q ∧ q < p + n ∧ Covers sel q := by
  induction n generalizing p with
  | zero =>
    simp only [intersectLoop]
    exact ⟨fun h => (by cases h), fun ⟨q, h1, h2, _⟩ => by omega⟩
  | succ n ih =>
    rw [intersectLoop]
    by_cases h : covered sel p false = true
    · rw [if_pos h]
      have := coversOff_zero.1 ((covered_off hs p false).1 h)
      exact ⟨fun _ => ⟨p, by omega, by omega, this⟩, fun _ => rfl⟩
    · rw [if_neg h, ih]
      constructor
      · rintro ⟨q, h1, h2, h3⟩; exact ⟨q, by omega, by omega, h3⟩
      · rintro ⟨q, h1, h2, h3⟩
        have hne : q ≠ p := by
          rintro rfl
          exact h ((covered_off hs q false).2 (coversOff_zero.2 h3))
        exact ⟨q, by omega, by omega, h3⟩

end Nature.Ranges
