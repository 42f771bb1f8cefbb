import Verif.Path.Spec
import Verif.Strings.Props
/-! C35: laws of `base`, `dir` and `join`. -/
namespace Nature.Path
open Nature Nature.Strings

/-! ### Components -/

theorem pieces_ne (s : Str) : pieces s ≠ [] := by
  cases s with
  | nil => simp [pieces]
  | cons c r =>
    unfold pieces
    split
    · simp
    · split <;> simp

theorem pieces_glue (a b : Str) : pieces (a ++ 47#8 :: b) = pieces a ++ pieces b := by
  induction a with
  | nil => simp [pieces]
  | cons c r ih =>
    simp only [List.cons_append]
    rw [pieces, pieces, ih]
    split
    · rfl
    · cases h : pieces r with
      | nil => exact absurd h (pieces_ne r)
      | cons p ps => rfl

theorem pieces_free (s : Str) (h : 47#8 ∉ s) : pieces s = [s] := by
  induction s with
  | nil => rfl
  | cons c r ih =>
    rw [pieces, if_neg (by intro hc; exact h (by simp [hc])), ih (fun hm => h (List.mem_cons_of_mem _ hm))]

theorem comps_glue (a b : Str) : comps (a ++ 47#8 :: b) = comps a ++ comps b := by
  unfold comps; rw [pieces_glue, List.filter_append]

theorem comps_nil : comps [] = [] := by decide

theorem comps_trailing (a : Str) : comps (a ++ [47#8]) = comps a := by
  rw [comps_glue, comps_nil, List.append_nil]

theorem comps_root : comps [47#8] = [] := by decide

theorem comps_dot (b : Str) : comps (46#8 :: 47#8 :: b) = comps b := by
  have := comps_glue [46#8] b
  simp only [List.cons_append, List.nil_append] at this
  rw [this]
  simp [show comps [46#8] = [] by decide]

theorem isAbs_append {a : Str} (h : a ≠ []) (b : Str) : isAbs (a ++ b) = isAbs a := by
  cases a with
  | nil => exact absurd rfl h
  | cons c r => rfl

/-! ### Outcomes of the functions -/

theorem lastSlash (p : Str) : ∃ r, rfind p [47#8] = .ok r ∧
    ((r = -1 ∧ 47#8 ∉ p) ∨ ∃ (i : Nat) (x y : Str), r = (i : Int) ∧ p = x ++ 47#8 :: y ∧ x.length = i ∧ 47#8 ∉ y) := by
  obtain ⟨r, e, h⟩ := C28_rfind p (sub := [47#8]) (by simp)
  refine ⟨r, e, ?_⟩
  rcases h with ⟨i, hr, ⟨x, y, e, hl⟩, hn⟩ | ⟨hr, hn⟩
  · refine .inr ⟨i, x, y, hr, by simpa using e, hl, ?_⟩
    intro hm
    obtain ⟨u, v, e2⟩ := List.append_of_mem hm
    refine hn (i + 1 + u.length) (by omega) ⟨x ++ 47#8 :: u, v, ?_, ?_⟩
    · rw [e, e2]; simp
    · simp; omega
  · refine .inl ⟨hr, fun hm => ?_⟩
    obtain ⟨u, v, e2⟩ := List.append_of_mem hm
    exact hn u.length ⟨u, v, by rw [e2]; simp, rfl⟩

theorem rtrim_slash (p : Str) : ∃ m k, rtrim p [[47#8]] = .ok m ∧ p = m ++ List.replicate k 47#8 ∧ m.getLast? ≠ some 47#8 := by
  obtain ⟨m, b, e, h1, h2, h3⟩ := C30_rtrim p [[47#8]] (by simp)
  refine ⟨m, b.length, h1, ?_, ?_⟩
  · rw [e]; congr 1
    apply List.eq_replicate_iff.2
    refine ⟨rfl, fun c hc => ?_⟩
    obtain ⟨t, ht, hh⟩ := h2 c hc
    simp at ht
    subst ht
    simpa using hh.symm
  · intro h
    exact h3 _ h ⟨[47#8], by simp, rfl⟩

theorem slice_pre {s x y : Str} (h : s = x ++ y) : slice s 0 x.length = .ok x := by
  have := slice_ok (s := s) (a := 0) (b := x.length) (by omega) (by rw [h]; simp)
  simp only [Int.natCast_zero, List.drop_zero, Nat.sub_zero] at this
  rw [this, h, List.take_left]

/-- **C35.** `base` is `.` for the empty path, `/` for slashes only, and otherwise the last
non-empty piece. -/
theorem C35_base (p : Str) : ∃ r, base p = .ok r ∧
    ((p = [] ∧ r = [46#8]) ∨ (∃ k, p = List.replicate (k + 1) 47#8 ∧ r = [47#8]) ∨
     (r ≠ [] ∧ 47#8 ∉ r ∧ ∃ x k, p = x ++ r ++ List.replicate k 47#8 ∧ (x = [] ∨ x.getLast? = some 47#8))) := by
  unfold base
  by_cases h0 : p = []
  · rw [if_pos h0]; exact ⟨_, rfl, .inl ⟨h0, rfl⟩⟩
  · rw [if_neg h0]
    obtain ⟨m, k, e, hp, hl⟩ := rtrim_slash p
    rw [e]
    simp only [Res.bind_ok]
    by_cases hm : m = []
    · rw [if_pos hm]
      refine ⟨_, rfl, .inr (.inl ⟨k - 1, ?_, rfl⟩)⟩
      subst hm
      cases k with
      | zero => exact absurd (by simpa using hp) h0
      | succ k => simpa using hp
    · rw [if_neg hm]
      obtain ⟨r, er, hr⟩ := lastSlash m
      rw [er]
      simp only [Res.bind_ok]
      rcases hr with ⟨h1, h2⟩ | ⟨i, x, y, h1, h2, h3, h4⟩
      · rw [if_pos h1]
        exact ⟨m, rfl, .inr (.inr ⟨hm, h2, [], k, by simpa using hp, .inl rfl⟩)⟩
      · rw [if_neg (by omega), h1]
        have hs := slice_ok (s := m) (a := i + 1) (b := m.length) (by rw [h2]; simp; omega) (Nat.le_refl _)
        rw [Int.natCast_add, Int.natCast_one] at hs
        have hd : (m.drop (i + 1)).take (m.length - (i + 1)) = y := by
          rw [List.take_of_length_le (by simp), h2, ← h3]
          rw [show x ++ 47#8 :: y = (x ++ [47#8]) ++ y by simp]
          exact List.drop_left' (by simp)
        rw [hd] at hs
        rw [hs]
        refine ⟨y, rfl, .inr (.inr ⟨?_, h4, x ++ [47#8], k, by rw [hp, h2]; simp, .inr (by simp)⟩)⟩
        intro hy
        subst hy
        exact hl (by rw [h2]; simp)

/-- **C35.** `dir` removes one trailing slash if there is one, and otherwise the last piece
with the slash before it; the root stays the root, and a path with no slash is in `.`. -/
theorem C35_dir (p : Str) : ∃ r, dir p = .ok r ∧
    ((47#8 ∉ p ∧ r = [46#8]) ∨ (p = [47#8] ∧ r = [47#8]) ∨ (p = r ++ [47#8] ∧ r ≠ []) ∨
     (∃ y, y ≠ [] ∧ 47#8 ∉ y ∧ ((p = 47#8 :: y ∧ r = [47#8]) ∨ (r ≠ [] ∧ p = r ++ 47#8 :: y)))) := by
  unfold dir
  by_cases h0 : p = []
  · rw [if_pos h0]; exact ⟨_, rfl, .inl ⟨by simp [h0], rfl⟩⟩
  · rw [if_neg h0]
    by_cases h1 : p = [47#8]
    · rw [if_pos h1]; exact ⟨_, rfl, .inr (.inl ⟨h1, rfl⟩)⟩
    · rw [if_neg h1]
      have hlen : 0 < p.length := List.length_pos_iff.2 h0
      rw [at_lt (show p.length - 1 < p.length by omega)]
      simp only [Res.bind_ok]
      have hp : p = p.dropLast ++ [p[p.length - 1]] := by
        have := (List.dropLast_concat_getLast h0).symm
        rw [List.getLast_eq_getElem] at this
        exact this
      generalize p[p.length - 1] = c at hp
      by_cases hc : c = 47#8
      · rw [if_pos hc]
        subst hc
        have := slice_pre (s := p) hp
        rw [List.length_dropLast] at this
        have hcast : ((p.length : Int) - 1) = ((p.length - 1 : Nat) : Int) := by omega
        rw [hcast, this]
        refine ⟨_, rfl, .inr (.inr (.inl ⟨hp, ?_⟩))⟩
        intro hn
        rw [hn] at hp
        exact h1 hp
      · rw [if_neg hc]
        obtain ⟨r, er, hr⟩ := lastSlash p
        rw [er]
        simp only [Res.bind_ok]
        rcases hr with ⟨h2, h3⟩ | ⟨i, x, y, h2, h3, h4, h5⟩
        · rw [if_pos h2]; exact ⟨_, rfl, .inl ⟨h3, rfl⟩⟩
        · have hy : y ≠ [] := by
            intro hy
            subst hy
            rw [h3] at hp
            have := congrArg List.getLast? hp
            simp at this
            exact hc this.symm
          rw [if_neg (by omega)]
          by_cases hi : i = 0
          · rw [if_pos (by omega)]
            have : x = [] := List.length_eq_zero_iff.1 (by omega)
            subst this
            exact ⟨_, rfl, .inr (.inr (.inr ⟨y, hy, h5, .inl ⟨by simpa using h3, rfl⟩⟩))⟩
          · rw [if_neg (by omega), h2, ← h4, slice_pre h3]
            exact ⟨x, rfl, .inr (.inr (.inr ⟨y, hy, h5, .inr ⟨by intro hx; subst hx; exact hi (by simpa using h4.symm), h3⟩⟩))⟩

theorem pushLoop_spec (src : Str) (k i : Nat) (acc : Str) (h : i + k = src.length) :
    pushLoop src k i acc = .ok (acc ++ src.drop i) := by
  induction k generalizing i acc with
  | zero => rw [List.drop_of_length_le (by omega)]; simp [pushLoop]
  | succ k ih =>
    rw [pushLoop, at_lt (by omega)]
    simp only [Res.bind_ok]
    rw [ih (i + 1) _ (by omega), drop_cons (show i < src.length by omega)]
    simp

/-- What `_join` returns. -/
theorem join2_spec (a b : Str) : ∃ r, join2 a b = .ok r ∧
    ((b = [] ∧ r = a) ∨ (a = [] ∧ r = b) ∨ (b = [46#8] ∧ r = a) ∨ (b.head? = some 47#8 ∧ r = b) ∨
     (a ≠ [] ∧ b ≠ [] ∧ b.head? ≠ some 47#8 ∧ b ≠ [46#8] ∧
      ∃ a' b', r = a' ++ 47#8 :: b' ∧ (a = a' ++ [47#8] ∨ (a = a' ∧ a.getLast? ≠ some 47#8)) ∧
        (b = 46#8 :: 47#8 :: b' ∨ b = b'))) := by
  unfold join2
  by_cases hb : b.length = 0
  · rw [if_pos hb]; exact ⟨_, rfl, .inl ⟨List.length_eq_zero_iff.1 hb, rfl⟩⟩
  rw [if_neg hb]
  by_cases ha : a.length = 0
  · rw [if_pos ha]; exact ⟨_, rfl, .inr (.inl ⟨List.length_eq_zero_iff.1 ha, rfl⟩)⟩
  rw [if_neg ha]
  by_cases hd : b = [46#8]
  · rw [if_pos hd]; exact ⟨_, rfl, .inr (.inr (.inl ⟨hd, rfl⟩))⟩
  rw [if_neg hd]
  cases hbe : b with
  | nil => simp [hbe] at hb
  | cons s0 t =>
  have ha0 : a ≠ [] := by intro h; simp [h] at ha
  rw [hbe] at hd
  rw [show at' (s0 :: t) 0 = .ok s0 from rfl]
  simp only [Res.bind_ok]
  by_cases h47 : s0 = 47#8
  · rw [if_pos h47]; exact ⟨_, rfl, .inr (.inr (.inr (.inl ⟨by simp [h47], rfl⟩)))⟩
  rw [if_neg h47, at_lt (show a.length - 1 < a.length by omega)]
  simp only [Res.bind_ok]
  have hp : a = a.dropLast ++ [a[a.length - 1]] := by
    have := (List.dropLast_concat_getLast ha0).symm
    rw [List.getLast_eq_getElem] at this
    exact this
  have hfst : ∃ a', (if a[a.length - 1] = 47#8 then slice a 0 (a.length - 1) else .ok a) = .ok a' ∧
      (a = a' ++ [47#8] ∨ (a = a' ∧ a.getLast? ≠ some 47#8)) := by
    generalize hc : a[a.length - 1] = c at hp
    by_cases h : c = 47#8
    · rw [if_pos h]
      subst h
      have := slice_pre (s := a) hp
      rw [List.length_dropLast] at this
      have hcast : ((a.length : Int) - 1) = ((a.length - 1 : Nat) : Int) := by omega
      rw [hcast, this]
      exact ⟨_, rfl, .inl hp⟩
    · rw [if_neg h]
      refine ⟨a, rfl, .inr ⟨rfl, ?_⟩⟩
      rw [hp]; simpa using h
  obtain ⟨a', e1, h1⟩ := hfst
  rw [e1]
  simp only [Res.bind_ok]
  have hh : (s0 :: t).head? ≠ some 47#8 := by simpa using h47
  by_cases hdot : s0 = 46#8
  · rw [if_pos hdot]
    cases t with
    | nil => rw [hdot] at hd; exact absurd rfl hd
    | cons s1 u =>
      rw [show at' (s0 :: s1 :: u) 1 = .ok s1 from rfl]
      simp only [Res.bind_ok]
      by_cases hs1 : s1 = 47#8
      · simp only [hs1, decide_true, if_true]
        rw [pushLoop_spec _ _ _ _ (by simp; omega)]
        exact ⟨_, rfl, .inr (.inr (.inr (.inr ⟨ha0, by simp, by rw [hdot]; simp, by simp, a', u, by simp, h1, .inl (by rw [hdot])⟩)))⟩
      · simp only [hs1, decide_false, Bool.false_eq_true, if_false]
        exact ⟨_, rfl, .inr (.inr (.inr (.inr ⟨ha0, by simp, hh, hd, a', s0 :: s1 :: u, by simp, h1, .inr rfl⟩)))⟩
  · rw [if_neg hdot]
    simp only [Res.bind_ok, Bool.false_eq_true, if_false]
    exact ⟨_, rfl, .inr (.inr (.inr (.inr ⟨ha0, by simp, hh, hd, a', s0 :: t, by simp, h1, .inr rfl⟩)))⟩

theorem isAbs_slash (a b : Str) : isAbs (a ++ 47#8 :: b) = isAbs (a ++ [47#8]) := by
  cases a <;> rfl

/-- **C35.** Joining two paths names the components of the first followed by those of the
second, from the first one's start; an absolute second path replaces the first. -/
theorem C35_join2 (a b : Str) : ∃ r, join a [b] = .ok r ∧
    comps r = (if isAbs b then comps b else comps a ++ comps b) ∧
    isAbs r = (isAbs a || isAbs b) := by
  obtain ⟨r, e, h⟩ := join2_spec a b
  refine ⟨r, by simp only [join, e, Res.bind_ok], ?_⟩
  rcases h with ⟨h1, h2⟩ | ⟨h1, h2⟩ | ⟨h1, h2⟩ | ⟨h1, h2⟩ | ⟨ha, hb, h1, _, a', b', hr, h2, h3⟩
  · subst h1 h2; simp [isAbs, comps_nil]
  · subst h1 h2; simp [isAbs, comps_nil]
  · subst h1 h2; simp [isAbs, show comps [46#8] = [] by decide]
  · subst h2; simp [isAbs, h1]
  · have hnb : isAbs b = false := by simp [isAbs, h1]
    rw [hnb, hr, comps_glue, isAbs_slash]
    simp only [Bool.false_eq_true, if_false, Bool.or_false]
    have hcb : comps b = comps b' := by
      rcases h3 with h3 | h3
      · rw [h3, comps_dot]
      · rw [h3]
    rcases h2 with h2 | ⟨h2, _⟩
    · rw [h2, comps_trailing, hcb]; exact ⟨rfl, rfl⟩
    · rw [← h2, hcb, isAbs_append ha]; exact ⟨rfl, rfl⟩

/-- **C35.** Joining a list: the components after the last absolute argument. -/
theorem C35_join (a : Str) (l : List Str) : ∃ r, join a l = .ok r ∧
    comps r = l.foldl (fun acc b => if isAbs b then comps b else acc ++ comps b) (comps a) ∧
    isAbs r = (isAbs a || l.any isAbs) := by
  induction l generalizing a with
  | nil => exact ⟨a, rfl, rfl, by simp⟩
  | cons b l ih =>
    obtain ⟨r, e, h1, h2⟩ := C35_join2 a b
    obtain ⟨q, e', h3, h4⟩ := ih r
    refine ⟨q, ?_, ?_, ?_⟩
    · simp only [join] at e ⊢
      cases hj : join2 a b with
      | ok x => rw [hj] at e; simp only [Res.bind_ok, Res.ok.injEq] at e ⊢; subst e; exact e'
      | throws => rw [hj] at e; cases e
      | abort => rw [hj] at e; cases e
      | ub => rw [hj] at e; cases e
    · rw [h3, h1]; rfl
    · rw [h4, h2]; simp [Bool.or_assoc]

/-- **C35 (partial).** Exactly one separator between the two parts.  Missing: a first path
ending in two slashes and a second one starting with `.//` (counterexample below). -/
theorem C35_one_separator_partial {a b : Str} (ha : a ≠ []) (hb : b ≠ []) (hb' : b ≠ [46#8]) (hr : isAbs b = false)
    (h1 : ¬ ∃ x, a = x ++ [47#8, 47#8]) (h2 : ¬ ∃ y, b = 46#8 :: 47#8 :: 47#8 :: y) :
    ∃ a' b', join a [b] = .ok (a' ++ 47#8 :: b') ∧ a'.getLast? ≠ some 47#8 ∧ b'.head? ≠ some 47#8 ∧
      (a = a' ∨ a = a' ++ [47#8]) ∧ (b = b' ∨ b = 46#8 :: 47#8 :: b') := by
  have hnr : b.head? ≠ some 47#8 := by simpa [isAbs] using hr
  obtain ⟨r, e, h⟩ := join2_spec a b
  rcases h with ⟨h, _⟩ | ⟨h, _⟩ | ⟨h, _⟩ | ⟨h, _⟩ | ⟨_, _, _, _, a', b', hr, h3, h4⟩
  · exact absurd h hb
  · exact absurd h ha
  · exact absurd h hb'
  · exact absurd h hnr
  · refine ⟨a', b', by simp only [join, e, Res.bind_ok, hr], ?_, ?_, ?_, ?_⟩
    · rcases h3 with h3 | ⟨h3, h5⟩
      · intro hl
        obtain ⟨x, hx⟩ : ∃ x, a' = x ++ [47#8] := by
          have := List.getLast?_eq_some_iff.1 hl
          exact this
        exact h1 ⟨x, by rw [h3, hx]; simp⟩
      · rw [← h3]; exact h5
    · rcases h4 with h4 | h4
      · intro hh
        cases b' with
        | nil => cases hh
        | cons c y =>
          simp at hh
          exact h2 ⟨y, by rw [h4, hh]⟩
      · rw [← h4]; exact hnr
    · rcases h3 with h3 | ⟨h3, _⟩
      · exact .inr h3
      · exact .inl h3
    · rcases h4 with h4 | h4
      · exact .inr h4
      · exact .inl h4

/-- **C35 counterexample**: `join("a//", "b")` is `a//b`, and `join("a", ".//b")` too. -/
theorem C35_double_separator_counterexample :
    join [97#8, 47#8, 47#8] [[98#8]] = .ok [97#8, 47#8, 47#8, 98#8] ∧
    join [97#8] [[46#8, 47#8, 47#8, 98#8]] = .ok [97#8, 47#8, 47#8, 98#8] := by decide

/-- **C35 (partial).** `dir` and `base` of a path recombine, by `join`, to an equivalent
path.  Missing: paths with a trailing slash (counterexample below). -/
theorem C35_recombine_partial (p : Str) (h0 : p ≠ []) (hl : p.getLast? ≠ some 47#8) :
    ∃ d b r, dir p = .ok d ∧ base p = .ok b ∧ join d [b] = .ok r ∧ Equiv r p := by
  obtain ⟨d, ed, hd⟩ := C35_dir p
  obtain ⟨b, eb, hb⟩ := C35_base p
  obtain ⟨r, er, hc, ha⟩ := C35_join2 d b
  refine ⟨d, b, r, ed, eb, er, ?_⟩
  -- the base: no slash, at the end of the path
  have hbase : b ≠ [] ∧ 47#8 ∉ b ∧ ∃ x, p = x ++ b ∧ (x = [] ∨ x.getLast? = some 47#8) := by
    rcases hb with ⟨h, _⟩ | ⟨k, h, _⟩ | ⟨h1, h2, x, k, h3, h4⟩
    · exact absurd h h0
    · exact absurd (by rw [h]; simp [List.getLast?_replicate]) hl
    · cases k with
      | zero => exact ⟨h1, h2, x, by simpa using h3, h4⟩
      | succ k => exact absurd (by rw [h3]; simp [List.getLast?_append, List.getLast?_replicate]) hl
  obtain ⟨hb1, hb2, x, hx, hxl⟩ := hbase
  have hnb : isAbs b = false := by
    cases b with
    | nil => exact absurd rfl hb1
    | cons c t => simp [isAbs]; intro hc; exact hb2 (by simp [hc])
  rw [hnb] at hc ha
  simp only [Bool.false_eq_true, if_false, Bool.or_false] at hc ha
  have key : isAbs d = isAbs p ∧ comps d ++ comps b = comps p := by
    rcases hd with ⟨h1, h2⟩ | ⟨h1, _⟩ | ⟨h1, _⟩ | ⟨y, hy, hy2, hh⟩
    · subst h2
      have : x = [] := by
        rcases hxl with h | h
        · exact h
        · exact absurd (by rw [hx]; exact List.mem_append_left _ (List.mem_of_getLast? h)) h1
      subst this
      rw [List.nil_append] at hx
      subst hx
      exact ⟨by rw [hnb]; decide, by simp [show comps [46#8] = [] by decide]⟩
    · exact absurd (by rw [h1]; rfl) hl
    · exact absurd (by rw [h1]; simp) hl
    · -- the last piece is the base
      have uniq : ∀ z, p = z ++ 47#8 :: y → y = b := by
        intro z hz
        rcases hxl with h | h
        · subst h
          rw [List.nil_append] at hx
          exact absurd (by rw [← hx, hz]; simp) hb2
        · obtain ⟨w, hw⟩ := List.getLast?_eq_some_iff.1 h
          rw [hw] at hx
          have e : (z ++ [47#8]) ++ y = (w ++ [47#8]) ++ b := by
            rw [← hx, hz]; simp
          rcases List.append_eq_append_iff.1 e with ⟨u, e1, e2⟩ | ⟨u, e1, e2⟩
          · cases hu : u with
            | nil => rw [hu] at e2; simpa using e2
            | cons q qs =>
              have hq : 47#8 ∈ u := by
                have := congrArg List.getLast? e1
                rw [hu] at this ⊢
                simp [List.getLast?_append] at this
                exact List.mem_of_getLast? this.symm
              exact absurd (by rw [e2]; exact List.mem_append_left _ hq) hy2
          · cases hu : u with
            | nil => rw [hu] at e2; simpa using e2.symm
            | cons q qs =>
              have hq : 47#8 ∈ u := by
                have := congrArg List.getLast? e1
                rw [hu] at this ⊢
                simp [List.getLast?_append] at this
                exact List.mem_of_getLast? this.symm
              exact absurd (by rw [e2]; exact List.mem_append_left _ hq) hb2
      rcases hh with ⟨h1, h2⟩ | ⟨h1, h2⟩
      · have := uniq [] (by simpa using h1)
        subst this
        rw [h2, h1]
        refine ⟨rfl, ?_⟩
        have := comps_glue [] y
        simp only [List.nil_append, comps_nil] at this
        rw [this, comps_root]; rfl
      · have := uniq d h2
        subst this
        rw [h2, isAbs_append h1, comps_glue]
        exact ⟨rfl, rfl⟩
  exact ⟨by rw [ha, key.1], by rw [hc, key.2]⟩

/-- `/usr//lib` has base `lib`, dir `/usr/`, and they join to `/usr/lib`. -/
example : dir [47#8, 117#8, 47#8, 47#8, 108#8] = .ok [47#8, 117#8, 47#8] ∧ base [47#8, 117#8, 47#8, 47#8, 108#8] = .ok [108#8] ∧
    join [47#8, 117#8, 47#8] [[108#8]] = .ok [47#8, 117#8, 47#8, 108#8] := by decide

/-- **C35 counterexample**: `a/b/` has dir `a/b` and base `b`, which join to `a/b/b`. -/
theorem C35_trailing_counterexample :
    ∃ p d b r, dir p = .ok d ∧ base p = .ok b ∧ join d [b] = .ok r ∧ ¬ Equiv r p :=
  ⟨[97#8, 47#8, 98#8, 47#8], [97#8, 47#8, 98#8], [98#8], [97#8, 47#8, 98#8, 47#8, 98#8], by decide, by decide, by decide,
    fun h => by have := h.2; revert this; decide⟩

end Nature.Path
