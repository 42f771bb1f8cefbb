import Verif.Strings.Lemmas
/-! C28–C31: properties of the string library. -/
namespace Nature.Strings
open Nature

/-! ### C28 searching -/

/-- C28 (partial): `find_after` returns the first occurrence at or after the start, -1 when there is none, for a non-empty
pattern, when the pattern is a single byte or neither string has a NUL byte.  Missing: the empty pattern and NUL bytes, where
the code gives other answers (counterexamples below). -/
theorem C28_find_after_partial {s sub : Str} (hsub : sub ≠ []) (hp : sub.length = 1 ∨ ((∀ x ∈ s, x ≠ 0#8) ∧ ∀ x ∈ sub, x ≠ 0#8))
    {a : Nat} (ha : a ≤ s.length) : ∃ r, findAfter s sub a = .ok r ∧ FirstFrom s sub a r := findAfter_spec hsub hp ha

/-- C28 (partial): `find` and `contains`, under the same conditions. -/
theorem C28_find_partial {s sub : Str} (hsub : sub ≠ []) (hp : sub.length = 1 ∨ ((∀ x ∈ s, x ≠ 0#8) ∧ ∀ x ∈ sub, x ≠ 0#8)) :
    (∃ r, find s sub = .ok r ∧ FirstFrom s sub 0 r) ∧ ∃ b, contains s sub = .ok b ∧ (b = true ↔ ∃ i, OccursAt s sub i) := by
  obtain ⟨r, e, hr⟩ := findAfter_spec hsub hp (Nat.zero_le _)
  refine ⟨⟨r, e, hr⟩, ?_⟩
  unfold contains find
  rw [e, Res.bind_ok]
  refine ⟨_, rfl, ?_⟩
  rw [decide_eq_true_eq]
  rcases hr with ⟨i, rfl, _, h2, _⟩ | ⟨rfl, h1⟩
  · exact ⟨fun _ => ⟨i, h2⟩, fun _ => by omega⟩
  · exact ⟨fun h => absurd rfl h, fun ⟨i, h⟩ => absurd h (h1 i (Nat.zero_le _))⟩

/-- "hello", "ll", "l" -/
def hello : Str := [104#8, 101#8, 108#8, 108#8, 111#8]
example : find hello [108#8, 108#8] = .ok 2 := by decide
example : (∀ x ∈ hello, x ≠ 0#8) ∧ ∀ x ∈ ([108#8, 108#8] : Str), x ≠ 0#8 := by decide

/-- C28: `rfind` returns the last occurrence, -1 when there is none: any bytes, any non-empty pattern. -/
theorem C28_rfind (s : Str) {sub : Str} (hsub : sub ≠ []) : ∃ r, rfind s sub = .ok r ∧ LastOcc s sub r := by
  unfold rfind
  rw [if_neg (by simpa using hsub)]
  by_cases h : sub.length > s.length
  · rw [if_pos h]
    exact ⟨-1, rfl, Or.inr ⟨rfl, fun j ho => by have := occ_len ho; omega⟩⟩
  · rw [if_neg h]
    exact rfindLoop_spec hsub _ (by omega) fun j hj ho => by have := occ_len ho; omega

example : rfind hello [108#8] = .ok 3 := by decide

/-- C28: `starts_with` and `ends_with` are exact, for all strings. -/
theorem C28_affixes (s t : Str) :
    (∃ b, startsWith s t = .ok b ∧ (b = true ↔ ∃ r, s = t ++ r)) ∧ (∃ b, endsWith s t = .ok b ∧ (b = true ↔ ∃ p, s = p ++ t)) := by
  constructor
  · unfold startsWith
    by_cases h : t.length > s.length
    · rw [if_pos h]
      refine ⟨false, rfl, ?_⟩
      simp only [Bool.false_eq_true, false_iff]
      rintro ⟨r, rfl⟩; simp at h; omega
    · rw [if_neg h]
      obtain ⟨b, e, hb⟩ := prefixLoop_spec (s := s) (start := 0) t 0 (by omega)
      refine ⟨b, e, hb.trans ?_⟩
      simp only [Nat.add_zero, List.drop_zero]
      exact ⟨fun ⟨r, h⟩ => ⟨r, h.symm⟩, fun ⟨r, h⟩ => ⟨r, h.symm⟩⟩
  · unfold endsWith
    by_cases h : t.length > s.length
    · rw [if_pos h]
      refine ⟨false, rfl, ?_⟩
      simp only [Bool.false_eq_true, false_iff]
      rintro ⟨r, rfl⟩; simp at h; omega
    · rw [if_neg h]
      obtain ⟨b, e, hb⟩ := prefixLoop_spec (s := s) (start := s.length - t.length) t 0 (by omega)
      refine ⟨b, e, hb.trans ?_⟩
      simp only [Nat.add_zero]
      constructor
      · rintro ⟨r, hr⟩
        have hl := congrArg List.length hr
        simp only [List.length_append, List.length_drop] at hl
        have : r = [] := List.eq_nil_of_length_eq_zero (by omega)
        subst this
        rw [List.append_nil] at hr
        exact ⟨s.take (s.length - t.length), by conv => lhs; rw [← List.take_append_drop (s.length - t.length) s, ← hr]⟩
      · rintro ⟨p, rfl⟩
        refine ⟨[], ?_⟩
        rw [List.append_nil, List.length_append, Nat.add_sub_cancel, List.drop_left' rfl]

example : startsWith hello [104#8, 101#8] = .ok true ∧ endsWith hello [108#8] = .ok false := by decide

/-- C28 counterexample: the empty pattern occurs everywhere, but `find` returns -1 and `contains` false. -/
theorem C28_empty_counterexample : ∃ (s sub : Str) (r : Int), find s sub = .ok r ∧ contains s sub = .ok false ∧ ¬ FirstFrom s sub 0 r := by
  refine ⟨hello, [], -1, by decide, by decide, ?_⟩
  rintro (⟨i, h, _⟩ | ⟨_, h⟩)
  · omega
  · exact h 0 (Nat.zero_le _) ⟨[], hello, rfl, rfl⟩

/-- C28 counterexample: with NUL bytes in play `find` misses an occurrence ("\0ab" contains "ab") and invents one
("abc" does not contain "b\0x"). -/
theorem C28_nul_counterexample :
    (find [0#8, 97#8, 98#8] [97#8, 98#8] = .ok (-1) ∧ OccursAt [0#8, 97#8, 98#8] [97#8, 98#8] 1) ∧
    (find [97#8, 98#8, 99#8] [98#8, 0#8, 120#8] = .ok 1 ∧ ¬ OccursAt [97#8, 98#8, 99#8] [98#8, 0#8, 120#8] 1) := by
  refine ⟨⟨by decide, ⟨[0#8], [], rfl, rfl⟩⟩, by decide, fun h => ?_⟩
  have := occ_len h
  simp at this

/-- C28 counterexample: a start beyond the end is not answered with -1 but reads outside the string. -/
theorem C28_start_counterexample : ∃ (s sub : Str) (a : Nat), FirstFrom s sub a (-1) ∧ findAfter s sub a = .ub := by
  refine ⟨hello, [108#8, 108#8], 9, Or.inr ⟨rfl, fun j hj ho => ?_⟩, by decide⟩
  have := occ_len ho
  simp [hello] at this; omega

/-! ### C29 split and join -/

/-- C29: `join` is the pieces with the separator between them. -/
theorem C29_join (l : List Str) (sep : Str) : join l sep = glue sep l := join_eq l sep

/-- C29: splitting by the empty separator gives the bytes, and joining gives the string back. -/
theorem C29_bytes (s : Str) : ∃ l, split s [] = .ok l ∧ join l [] = s ∧ ∀ p ∈ l, p.length = 1 := by
  refine ⟨s.map fun v => [v], by simp [split], ?_, ?_⟩
  · rw [join_eq, glue_nil]
    induction s with
    | nil => rfl
    | cons x s ih => simp only [List.map_cons, List.flatten_cons, ih]; rfl
  · intro p hp
    obtain ⟨v, _, rfl⟩ := List.mem_map.1 hp
    rfl

/-- C29 (partial): splitting by a non-empty separator terminates, no piece contains the separator, and joining gives the string
back, or the string without one final separator.  Missing: the final separator (counterexample below), NUL bytes. -/
theorem C29_split_join_partial {s sep : Str} (hsep : sep ≠ []) (hp : sep.length = 1 ∨ ((∀ x ∈ s, x ≠ 0#8) ∧ ∀ x ∈ sep, x ≠ 0#8)) :
    ∃ l, split s sep = .ok l ∧ (∀ p ∈ l, ∀ j, ¬ OccursAt p sep j) ∧ (join l sep = s ∨ join l sep ++ sep = s) := by
  unfold split
  rw [if_neg hsep]
  by_cases hs : s = []
  · rw [if_pos hs]
    exact ⟨[], rfl, by simp, Or.inl (by rw [hs]; rfl)⟩
  rw [if_neg hs]
  by_cases hl : s.length < sep.length
  · rw [if_pos hl]
    refine ⟨[s], rfl, ?_, Or.inl (by rw [join_eq]; rfl)⟩
    intro p hp' j ho
    rw [List.mem_singleton] at hp'
    subst hp'
    have := occ_len ho
    omega
  · rw [if_neg hl]
    obtain ⟨l, e, _, hg, hno⟩ := splitLoop_spec hsep hp (s.length + 1) 0 (by omega) (Nat.zero_le _)
    refine ⟨l, e, hno, ?_⟩
    rw [join_eq]
    rcases hg with hg | ⟨_, hg⟩
    · exact Or.inl (by simpa using hg)
    · exact Or.inr (by simpa using hg)

/-- C29 (partial): when the string does not end with the separator, joining gives it back exactly. -/
theorem C29_round_trip_partial {s sep : Str} (hsep : sep ≠ []) (hp : sep.length = 1 ∨ ((∀ x ∈ s, x ≠ 0#8) ∧ ∀ x ∈ sep, x ≠ 0#8))
    (hend : ¬ ∃ p, s = p ++ sep) : ∃ l, split s sep = .ok l ∧ join l sep = s := by
  obtain ⟨l, e, _, h | h⟩ := C29_split_join_partial hsep hp
  · exact ⟨l, e, h⟩
  · exact absurd ⟨_, h.symm⟩ hend

/-- "a,b,,c" -/
def csv : Str := [97#8, 44#8, 98#8, 44#8, 44#8, 99#8]
example : split csv [44#8] = .ok [[97#8], [98#8], [], [99#8]] := by decide
example : ¬ ∃ p, csv = p ++ [44#8] := by
  rintro ⟨p, h⟩
  have := congrArg List.getLast? h
  simp [csv] at this

/-- C29 counterexample: "a," splits into one piece, and joining drops the separator. -/
theorem C29_trailing_counterexample : ∃ (s sep : Str) (l : List Str), sep ≠ [] ∧ split s sep = .ok l ∧ join l sep ≠ s :=
  ⟨[97#8, 44#8], [44#8], [[97#8]], by decide, by decide, by decide⟩

/-! ### C30 reverse, trim, replace, case -/

/-- C30: `reverse` reverses the bytes. -/
theorem C30_reverse (s : Str) : reverse s = .ok s.reverse := by
  unfold reverse
  obtain ⟨r, e, hr⟩ := reverseLoop_spec s.length s 0 (List.replicate s.length 0#8) (by simp) (by omega)
  rw [e, hr, List.drop_eq_nil_of_le (by simp), List.append_nil]

/-- C30: reversing twice gives the string back. -/
theorem C30_reverse_twice (s : Str) : (reverse s).bind reverse = .ok s := by
  rw [C30_reverse, Res.bind_ok, C30_reverse, List.reverse_reverse]

/-- C30: `trim` splits the string into a cut front, the result and a cut back; the result neither starts nor ends with a cut
byte.  The cut bytes are the first bytes of the given strings; each must be non-empty. -/
theorem C30_trim (s : Str) (l : List Str) (h : ∀ t ∈ l, t ≠ []) :
    ∃ a m b, s = a ++ m ++ b ∧ trim s l = .ok m ∧ ltrim s l = .ok (m ++ b) ∧
      (∀ c ∈ a ++ b, ∃ t ∈ l, t.head? = some c) ∧
      (∀ c, (m ++ b).head? = some c → ¬ ∃ t ∈ l, t.head? = some c) ∧ (∀ c, m.getLast? = some c → ¬ ∃ t ∈ l, t.head? = some c) := by
  obtain ⟨cut, e, hc⟩ := cutSet_spec l h
  let q : Byte → Bool := fun c => decide (c ∈ cut)
  have hq : ∀ c, q c = true ↔ ∃ t ∈ l, t.head? = some c := fun c => by rw [← hc]; simp [q]
  have h1 : ltrim s l = .ok (s.dropWhile q) := by
    unfold ltrim; rw [e, Res.bind_ok, ltrimLoop_spec s cut s 0 (by simp) (Nat.zero_le _)]
  generalize hs1 : s.dropWhile q = s1 at h1
  have h2 : trim s l = .ok ((s1.reverse.dropWhile q).reverse) := by
    unfold trim rtrim
    rw [h1, Res.bind_ok, e, Res.bind_ok, rtrimLoop_spec s1 cut _ (Nat.le_refl _), List.take_length]
  have h3 : s1 = (s1.reverse.dropWhile q).reverse ++ (s1.reverse.takeWhile q).reverse := by
    rw [← List.reverse_append, List.takeWhile_append_dropWhile, List.reverse_reverse]
  refine ⟨s.takeWhile q, (s1.reverse.dropWhile q).reverse, (s1.reverse.takeWhile q).reverse, ?_, h2, by rw [← h3]; exact h1, ?_, ?_, ?_⟩
  · rw [List.append_assoc, ← h3, ← hs1, List.takeWhile_append_dropWhile]
  · intro c hm
    rw [← hq]
    rcases List.mem_append.1 hm with hm | hm
    · exact mem_takeWhile hm
    · exact mem_takeWhile (List.mem_reverse.1 hm)
  · intro c hm
    rw [← h3, ← hs1] at hm
    rw [← hq]
    have := List.head?_dropWhile_not q s
    rw [hm] at this
    simpa using this
  · intro c hm
    rw [List.getLast?_reverse] at hm
    rw [← hq]
    have := List.head?_dropWhile_not q s1.reverse
    rw [hm] at this
    simpa using this

/-- C30: `rtrim` likewise. -/
theorem C30_rtrim (s : Str) (l : List Str) (h : ∀ t ∈ l, t ≠ []) :
    ∃ m b, s = m ++ b ∧ rtrim s l = .ok m ∧ (∀ c ∈ b, ∃ t ∈ l, t.head? = some c) ∧
      (∀ c, m.getLast? = some c → ¬ ∃ t ∈ l, t.head? = some c) := by
  obtain ⟨cut, e, hc⟩ := cutSet_spec l h
  let q : Byte → Bool := fun c => decide (c ∈ cut)
  have hq : ∀ c, q c = true ↔ ∃ t ∈ l, t.head? = some c := fun c => by rw [← hc]; simp [q]
  refine ⟨(s.reverse.dropWhile q).reverse, (s.reverse.takeWhile q).reverse, ?_, ?_, ?_, ?_⟩
  · rw [← List.reverse_append, List.takeWhile_append_dropWhile, List.reverse_reverse]
  · unfold rtrim; rw [e, Res.bind_ok, rtrimLoop_spec s cut _ (Nat.le_refl _), List.take_length]
  · intro c hm
    rw [← hq]
    exact mem_takeWhile (List.mem_reverse.1 hm)
  · intro c hm
    rw [List.getLast?_reverse] at hm
    rw [← hq]
    have := List.head?_dropWhile_not q s.reverse
    rw [hm] at this
    simpa using this

example : trim [32#8, 97#8, 32#8, 98#8, 32#8] [[32#8]] = .ok [97#8, 32#8, 98#8] := by decide

/-- C30 (partial): `replace` replaces the occurrences of `old` taken from the left without overlap, and nothing else.
Missing: NUL bytes with a pattern of two or more bytes. -/
theorem C30_replace_partial {s old : Str} (new : Str) (hold : old ≠ []) (hp : old.length = 1 ∨ ((∀ x ∈ s, x ≠ 0#8) ∧ ∀ x ∈ old, x ≠ 0#8)) :
    ∃ r, replace s old new = .ok r ∧ Replaced old new s r := by
  unfold replace
  by_cases h : s.length < old.length
  · rw [if_pos (Or.inr h)]
    exact ⟨s, rfl, .none _ fun j ho => by have := occ_len ho; omega⟩
  · rw [if_neg (by have := List.length_pos_iff.2 hold; omega)]
    obtain ⟨q, e, hq⟩ := replaceLoop_spec new hold hp (s.length + 1) 0 [] (by omega) (Nat.zero_le _)
    exact ⟨q, e, hq⟩

example : replace hello [108#8] [97#8, 98#8] = .ok [104#8, 101#8, 97#8, 98#8, 97#8, 98#8, 111#8] := by decide

/-- C30: `to_lower` and `to_upper` change the ASCII letters and nothing else, byte by byte. -/
theorem C30_case (s : Str) :
    toLower s = .ok (s.map fun c => if 65 ≤ c.toNat ∧ c.toNat ≤ 90 then c + 32#8 else c) ∧
    toUpper s = .ok (s.map fun c => if 97 ≤ c.toNat ∧ c.toNat ≤ 122 then c - 32#8 else c) := by
  unfold toLower toUpper
  rw [mapLoop_spec _ _ _ _ (by simp), mapLoop_spec _ _ _ _ (by simp)]
  exact ⟨rfl, rfl⟩

/-! ### C31 to_int -/

theorem denotes_iff {s : Str} {v : Int} (hs : s ≠ []) :
    Denotes s v ↔ ∃ k, let t := if s.head? = some 45#8 then s.tail else s
      t = List.replicate k 32#8 ++ t.drop k ∧ k < t.length ∧ (∀ d ∈ t.drop k, isDigit d) ∧
      v = if s.head? = some 45#8 then -(decVal (t.drop k) : Int) else decVal (t.drop k) := by
  constructor
  · rintro ⟨neg, k, ds, rfl, h1, h2, rfl⟩
    refine ⟨k, ?_⟩
    have hd : (List.replicate k 32#8 ++ ds).drop k = ds := List.drop_left' (by simp)
    have hl : k < (List.replicate k 32#8 ++ ds).length := by
      have := List.length_pos_iff.2 h1
      simp; omega
    cases neg with
    | true =>
      simp only [if_true, List.nil_append, List.cons_append, List.head?_cons, List.tail_cons]
      exact ⟨by rw [hd], hl, by rw [hd]; exact h2, by rw [hd]⟩
    | false =>
      have : (List.replicate k 32#8 ++ ds).head? ≠ some 45#8 := by
        cases k with
        | zero =>
          cases ds with
          | nil => simp
          | cons d ds =>
            intro he
            have he := Option.some.inj he
            have := h2 d List.mem_cons_self
            subst he
            simp at this
        | succ k => simp [List.replicate_succ]
      simp only [Bool.false_eq_true, if_false, List.nil_append, if_neg this]
      exact ⟨by rw [hd], hl, by rw [hd]; exact h2, by rw [hd]⟩
  · rintro ⟨k, h1, h2, h3, h4⟩
    by_cases hm : s.head? = some 45#8
    · simp only [if_pos hm] at h1 h2 h3 h4
      refine ⟨true, k, s.tail.drop k, ?_, ?_, h3, h4⟩
      · simp only [if_true]
        rw [List.append_assoc, ← h1]
        cases s with
        | nil => exact absurd rfl hs
        | cons x s => simp at hm; simp [hm]
      · intro h0; have := congrArg List.length h0; simp only [List.length_drop, List.length_nil] at this; omega
    · simp only [if_neg hm] at h1 h2 h3 h4
      refine ⟨false, k, s.drop k, by simpa using h1, ?_, h3, h4⟩
      intro h0; have := congrArg List.length h0; simp only [List.length_drop, List.length_nil] at this; omega

theorem spaces_unique {t : Str} {k k' : Nat} (h1 : t = List.replicate k 32#8 ++ t.drop k) (h2 : t = List.replicate k' 32#8 ++ t.drop k')
    (hk : k < t.length) (hk' : k' < t.length) (h3 : t[k]? ≠ some 32#8) (h4 : t[k']? ≠ some 32#8) : k = k' := by
  have aux : ∀ a b : Nat, t = List.replicate b 32#8 ++ t.drop b → t[a]? ≠ some 32#8 → ¬ a < b := by
    intro a b h h' hab
    apply h'
    rw [h, List.getElem?_append_left (by simpa using hab), List.getElem?_replicate, if_pos hab]
  have := aux k k' h2 h3
  have := aux k' k h1 h4
  omega

theorem digit_ne_space {c : Byte} (h : isDigit c) : c ≠ 32#8 := by
  rintro rfl
  unfold isDigit at h
  simp at h

/-- What `to_int` answers. -/
theorem toInt_spec (s : Str) :
    (∃ v, toInt s = .ok v ∧ Denotes s v ∧ -2147483649 ≤ v ∧ v ≤ 2147483649) ∨
    (toInt s = .throws ∧ ∀ v, Denotes s v → v < -2147483649 ∨ v > 2147483649) := by
  by_cases hs : s = []
  · subst hs
    right
    refine ⟨rfl, ?_⟩
    rintro v ⟨neg, k, ds, h, h1, _⟩
    have := congrArg List.length h
    have := List.length_pos_iff.2 h1
    simp at *
    omega
  have hlen : 0 < s.length := List.length_pos_iff.2 hs
  have hhead : s.head? = some s[0] := by rw [List.head?_eq_getElem?, List.getElem?_eq_getElem hlen]
  unfold toInt
  rw [if_neg (by omega), at_lt hlen, Res.bind_ok]
  simp only [denotes_iff hs]
  generalize hneg : decide (s[0] = 45#8) = neg
  have hm : (s.head? = some 45#8) ↔ neg = true := by rw [hhead, ← hneg]; simp
  simp only [hm]
  by_cases h1 : neg = true ∧ s.length = 1
  · rw [if_pos h1]
    right
    refine ⟨rfl, ?_⟩
    rintro v ⟨k, _, h2, _⟩
    simp only [if_pos h1.1, List.length_tail, h1.2] at h2
    omega
  rw [if_neg h1]
  generalize hst : (if neg = true then 1 else 0 : Nat) = start
  have ht : (if neg = true then s.tail else s) = s.drop start := by
    rw [← hst]
    by_cases h : neg = true
    · rw [if_pos h, if_pos h, List.drop_one]
    · rw [if_neg h, if_neg h, List.drop_zero]
  have hsl : start < s.length := by
    by_cases h : neg = true
    · rw [if_pos h] at hst
      have : s.length ≠ 1 := fun h' => h1 ⟨h, h'⟩
      omega
    · rw [if_neg h] at hst
      omega
  rw [ht]
  rcases skipSpaces_spec s start _ start rfl with ⟨k, e, h2, h3, h4⟩ | ⟨e, h2⟩
  · rw [e, Res.bind_ok]
    have hk4 : (s.drop start)[k]? ≠ some 32#8 := by
      rw [List.getElem?_drop]
      rw [List.head?_drop] at h4
      exact h4
    have huniq : ∀ k', s.drop start = List.replicate k' 32#8 ++ (s.drop start).drop k' → k' < (s.drop start).length →
        (∀ d ∈ (s.drop start).drop k', isDigit d) → k' = k := by
      intro k' h5 h6 h7
      refine spaces_unique h5 (by rw [List.drop_drop]; exact h2) h6 (by simp; omega) ?_ hk4
      intro h8
      refine digit_ne_space (h7 32#8 ?_) rfl
      rw [List.drop_eq_getElem_cons h6]
      rw [List.getElem?_eq_getElem h6] at h8
      rw [Option.some.inj h8]
      exact List.mem_cons_self
    have hdd : (s.drop start).drop k = s.drop (start + k) := by rw [List.drop_drop]
    have hacc : ∀ l, accVal 0 l = decVal l := fun _ => rfl
    rcases digitLoop_spec s _ (start + k) 0 rfl with ⟨e', h5, h6⟩ | ⟨e', h5⟩
    · left
      rw [show ((0 : Nat) : Int) = 0 from rfl] at e'
      rw [e', Res.bind_ok]
      have h6 := h6 h3
      rw [hacc] at h6 ⊢
      refine ⟨_, rfl, ⟨k, by rw [hdd]; exact h2, by simp; omega, by rw [hdd]; exact h5, by rw [hdd]⟩, ?_, ?_⟩
      · split <;> omega
      · split <;> omega
    · right
      rw [show ((0 : Nat) : Int) = 0 from rfl] at e'
      rw [e', Res.bind_throws]
      refine ⟨rfl, ?_⟩
      rintro v ⟨k', h6, h7, h8, h9⟩
      have := huniq k' h6 h7 h8
      subst this
      rw [hdd] at h8 h9
      rcases h5 with ⟨d, h10, h11⟩ | h5
      · exact absurd (h8 d h10) h11
      · rw [hacc] at h5
        split at h9 <;> omega
  · rw [e, Res.bind_ok]
    have hall : ∀ d ∈ s.drop start, d = 32#8 := by
      rw [h2]; intro d hd; exact List.eq_of_mem_replicate hd
    right
    have hno : ∀ k', k' < (s.drop start).length → ¬ ∀ d ∈ (s.drop start).drop k', isDigit d := by
      intro k' h3 h4
      rw [List.drop_eq_getElem_cons h3] at h4
      exact digit_ne_space (h4 _ List.mem_cons_self) (hall _ (List.getElem_mem h3))
    rcases digitLoop_spec s _ start 0 rfl with ⟨e', h5, _⟩ | ⟨e', _⟩
    · exact absurd (by simpa using h5) (hno 0 (by simp; omega))
    · rw [show ((0 : Nat) : Int) = 0 from rfl] at e'
      rw [e', Res.bind_throws]
      refine ⟨rfl, ?_⟩
      rintro v ⟨k', h6, h7, h8, h9⟩
      exact absurd h8 (hno k' h7)

/-- C31: `to_int` never misreads: what it returns is what the string denotes; otherwise it throws. -/
theorem C31_never_misreads (s : Str) : toInt s = .throws ∨ ∃ v, toInt s = .ok v ∧ Denotes s v := by
  rcases toInt_spec s with ⟨v, h1, h2, _⟩ | ⟨h, _⟩
  · exact Or.inr ⟨v, h1, h2⟩
  · exact Or.inl h

/-- C31: a string that denotes no number throws. -/
theorem C31_rejects {s : Str} (h : ∀ v, ¬ Denotes s v) : toInt s = .throws := by
  rcases toInt_spec s with ⟨v, _, h2, _⟩ | ⟨h, _⟩
  · exact absurd h2 (h v)
  · exact h

/-- C31 (partial): every string denoting a number of at most 2147483649 in magnitude is read as that number.
Missing: larger numbers, which a 64-bit `int` can hold but `to_int` rejects (counterexample below). -/
theorem C31_reads_partial {s : Str} {v : Int} (h : Denotes s v) (hlo : -2147483649 ≤ v) (hhi : v ≤ 2147483649) : toInt s = .ok v := by
  rcases toInt_spec s with ⟨w, h1, ⟨neg', k', ds', e', h1', h2', rfl⟩, _⟩ | ⟨_, h2⟩
  · have hs : s ≠ [] := by
      rintro rfl
      have := congrArg List.length e'
      have := List.length_pos_iff.2 h1'
      simp at *
      omega
    have hw : Denotes s (if neg' = true then -(decVal ds' : Int) else decVal ds') := ⟨neg', k', ds', e', h1', h2', rfl⟩
    rw [denotes_iff hs] at h hw
    obtain ⟨k1, a1, a2, a3, a4⟩ := h
    obtain ⟨k2, b1, b2, b3, b4⟩ := hw
    have hne : ∀ k, k < (if s.head? = some 45#8 then s.tail else s).length →
        (∀ d ∈ (if s.head? = some 45#8 then s.tail else s).drop k, isDigit d) →
        (if s.head? = some 45#8 then s.tail else s)[k]? ≠ some 32#8 := by
      intro k h6 h7 h8
      refine digit_ne_space (h7 32#8 ?_) rfl
      rw [List.drop_eq_getElem_cons h6]
      rw [List.getElem?_eq_getElem h6] at h8
      rw [Option.some.inj h8]
      exact List.mem_cons_self
    have := spaces_unique a1 b1 a2 b2 (hne _ a2 a3) (hne _ b2 b3)
    subst this
    rw [h1, b4, a4]
  · rcases h2 v h with h | h <;> omega

/-- "- 42", "3000000000" -/
example : toInt [45#8, 32#8, 52#8, 50#8] = .ok (-42) := by decide
example : Denotes [45#8, 32#8, 52#8, 50#8] (-42) := ⟨true, 1, [52#8, 50#8], rfl, by decide, by decide, by decide⟩

/-- C31 counterexample: "3000000000" denotes a number well within the 64-bit `int`, but `to_int` throws. -/
theorem C31_limit_counterexample : ∃ (s : Str) (v : Int), Denotes s v ∧ 0 ≤ v ∧ v < 2 ^ 63 ∧ toInt s = .throws :=
  ⟨[51#8, 48#8, 48#8, 48#8, 48#8, 48#8, 48#8, 48#8, 48#8, 48#8], 3000000000,
    ⟨false, 0, _, rfl, by decide, by decide, by decide⟩, by decide, by decide, by decide⟩

end Nature.Strings
