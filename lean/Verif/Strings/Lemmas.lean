import Verif.Strings.Spec
namespace Nature.Strings
open Nature

theorem at_lt {s : Str} {k : Nat} (h : k < s.length) : at' s k = .ok s[k] := by
  unfold at'; rw [List.getElem?_eq_getElem h]

theorem drop_cons {s : Str} {k : Nat} (h : k < s.length) : s.drop k = s[k] :: s.drop (k + 1) := List.drop_eq_getElem_cons h

theorem occ_iff {s sub : Str} {i : Nat} : OccursAt s sub i ↔ i ≤ s.length ∧ sub <+: s.drop i := by
  constructor
  · rintro ⟨p, r, rfl, rfl⟩
    refine ⟨by simp, r, ?_⟩
    rw [List.append_assoc, List.drop_left' rfl]
  · rintro ⟨h, r, hr⟩
    refine ⟨s.take i, r, ?_, by simp [h]⟩
    rw [List.append_assoc, hr, List.take_append_drop]

theorem occ_len {s sub : Str} {i : Nat} (h : OccursAt s sub i) : i + sub.length ≤ s.length := by
  obtain ⟨p, r, rfl, rfl⟩ := h
  simp

theorem findCharFrom_spec (s : Str) (c : Byte) (f k : Nat) (h : f = s.length - k) :
    ∃ r, findCharFrom s c f k = .ok r ∧ FirstFrom s [c] k r := by
  induction f generalizing k with
  | zero =>
    refine ⟨-1, rfl, Or.inr ⟨rfl, fun j hj ho => ?_⟩⟩
    have := occ_len ho
    simp at this; omega
  | succ f ih =>
    have hk : k < s.length := by omega
    unfold findCharFrom
    rw [at_lt hk, Res.bind_ok]
    by_cases hc : s[k] = c
    · rw [if_pos hc]
      refine ⟨k, rfl, Or.inl ⟨k, rfl, Nat.le_refl _, ?_, fun j h1 h2 => by omega⟩⟩
      rw [occ_iff, drop_cons hk, hc]
      exact ⟨by omega, ⟨_, rfl⟩⟩
    · rw [if_neg hc]
      obtain ⟨r, e, hr⟩ := ih (k + 1) (by omega)
      refine ⟨r, e, ?_⟩
      have hno : ¬ OccursAt s [c] k := by
        rw [occ_iff, drop_cons hk]
        rintro ⟨_, t, ht⟩
        simp only [List.cons_append, List.cons.injEq] at ht
        exact hc ht.1.symm
      rcases hr with ⟨i, h1, h2, h3, h4⟩ | ⟨h1, h2⟩
      · refine Or.inl ⟨i, h1, by omega, h3, fun j h5 h6 => ?_⟩
        by_cases hj : j = k
        · subst hj; exact hno
        · exact h4 j (by omega) h6
      · refine Or.inr ⟨h1, fun j h5 => ?_⟩
        by_cases hj : j = k
        · subst hj; exact hno
        · exact h2 j (by omega)

theorem strstr_spec (hay needle : Str) (i0 : Nat) :
    (∃ d, strstr hay needle i0 = some (i0 + d) ∧ d ≤ hay.length ∧ needle <+: hay.drop d ∧ ∀ d', d' < d → ¬ needle <+: hay.drop d') ∨
    (strstr hay needle i0 = none ∧ ∀ d, ¬ needle <+: hay.drop d) := by
  induction hay generalizing i0 with
  | nil =>
    unfold strstr
    by_cases h : needle.isPrefixOf [] = true
    · rw [if_pos h]
      exact Or.inl ⟨0, rfl, Nat.le_refl _, List.isPrefixOf_iff_prefix.1 h, fun d' h => by omega⟩
    · rw [if_neg h]
      refine Or.inr ⟨rfl, fun d hd => h ?_⟩
      rw [List.drop_nil] at hd
      exact List.isPrefixOf_iff_prefix.2 hd
  | cons x hay ih =>
    unfold strstr
    by_cases h : needle.isPrefixOf (x :: hay) = true
    · rw [if_pos h]
      exact Or.inl ⟨0, rfl, Nat.zero_le _, List.isPrefixOf_iff_prefix.1 h, fun d' h => by omega⟩
    · rw [if_neg h]
      have h0 : ¬ needle <+: x :: hay := fun hp => h (List.isPrefixOf_iff_prefix.2 hp)
      rcases ih (i0 + 1) with ⟨d, h1, h2, h3, h4⟩ | ⟨h1, h2⟩
      · refine Or.inl ⟨d + 1, by rw [h1]; congr 1; omega, by simp; omega, h3, fun d' hd' => ?_⟩
        cases d' with
        | zero => exact h0
        | succ d' => exact h4 d' (by omega)
      · refine Or.inr ⟨h1, fun d => ?_⟩
        cases d with
        | zero => exact h0
        | succ d => exact h2 d

/-- No NUL byte. -/
def NoNul (s : Str) : Prop := ∀ x ∈ s, x ≠ 0#8

theorem cstr_id {b : Str} (h : NoNul b) : cstr b = b := by
  induction b with
  | nil => rfl
  | cons x xs ih =>
    have hx : (x != 0#8) = true := by simpa using h x List.mem_cons_self
    have := ih fun y hy => h y (List.mem_cons_of_mem _ hy)
    unfold cstr at this ⊢
    rw [List.takeWhile_cons, if_pos hx, this]

/-- When the search is exact: single-byte patterns, or no NUL bytes. -/
def Plain (s sub : Str) : Prop := sub.length = 1 ∨ (NoNul s ∧ NoNul sub)

theorem findAfter_spec {s sub : Str} (hsub : sub ≠ []) (hp : Plain s sub) {a : Nat} (ha : a ≤ s.length) :
    ∃ r, findAfter s sub a = .ok r ∧ FirstFrom s sub a r := by
  unfold findAfter
  rw [if_neg (by simpa using hsub)]
  by_cases h1 : sub.length = 1
  · rw [if_pos h1]
    obtain ⟨c, rfl⟩ := List.length_eq_one_iff.1 h1
    exact findCharFrom_spec s c _ a rfl
  · rw [if_neg h1, if_neg (by omega)]
    rcases hp with hp | ⟨hs, ht⟩
    · exact absurd hp h1
    · have hd : NoNul (s.drop a) := fun x hx => hs x (List.mem_of_mem_drop hx)
      rw [cstr_id hd, cstr_id ht]
      have hdd : ∀ d, (s.drop a).drop d = s.drop (a + d) := by intro d; rw [List.drop_drop]
      rcases strstr_spec (s.drop a) sub 0 with ⟨d, e, hl, h2, h3⟩ | ⟨e, h2⟩
      · rw [e]
        simp only [List.length_drop] at hl
        refine ⟨_, rfl, Or.inl ⟨a + d, by simp, by omega, occ_iff.2 ⟨by omega, by rw [← hdd]; exact h2⟩, ?_⟩⟩
        intro j hj1 hj2 ho
        refine h3 (j - a) (by omega) ?_
        rw [hdd, show a + (j - a) = j by omega]
        exact (occ_iff.1 ho).2
      · rw [e]
        refine ⟨_, rfl, Or.inr ⟨rfl, fun j hj ho => h2 (j - a) ?_⟩⟩
        rw [hdd, show a + (j - a) = j by omega]
        exact (occ_iff.1 ho).2

theorem matchAt_spec {s sub : Str} {i : Nat} (hi : i + sub.length ≤ s.length) (f j : Nat) (hj : j + f = sub.length) :
    ∃ b, matchAt s sub i f j = .ok b ∧ (b = true ↔ sub.drop j <+: s.drop (i + j)) := by
  induction f generalizing j with
  | zero =>
    refine ⟨true, rfl, ?_⟩
    rw [List.drop_eq_nil_of_le (by omega)]
    simp
  | succ f ih =>
    unfold matchAt
    have h1 : i + j < s.length := by omega
    have h2 : j < sub.length := by omega
    rw [at_lt h1, Res.bind_ok, at_lt h2, Res.bind_ok, drop_cons h1, drop_cons h2]
    by_cases hx : s[i + j] = sub[j]
    · rw [if_neg (by simpa using hx)]
      obtain ⟨b, e, hb⟩ := ih (j + 1) (by omega)
      refine ⟨b, e, ?_⟩
      rw [hb, List.cons_prefix_cons, show i + j + 1 = i + (j + 1) by omega]
      simp [hx]
    · rw [if_pos hx]
      refine ⟨false, rfl, ?_⟩
      rw [List.cons_prefix_cons]
      simp only [Bool.false_eq_true, false_iff]
      rintro ⟨e, _⟩; exact hx e.symm

theorem rfindLoop_spec {s sub : Str} (hsub : sub ≠ []) (n : Nat) (hn : n + sub.length ≤ s.length + 1)
    (hno : ∀ j, n ≤ j → ¬ OccursAt s sub j) : ∃ r, rfindLoop s sub n = .ok r ∧ LastOcc s sub r := by
  induction n with
  | zero => exact ⟨-1, rfl, Or.inr ⟨rfl, fun j => hno j (Nat.zero_le _)⟩⟩
  | succ n ih =>
    unfold rfindLoop
    obtain ⟨b, e, hb⟩ := matchAt_spec (s := s) (sub := sub) (i := n) (by omega) sub.length 0 (by omega)
    rw [e, Res.bind_ok]
    simp only [List.drop_zero, Nat.add_zero] at hb
    cases b with
    | true =>
      rw [if_pos rfl]
      exact ⟨n, rfl, Or.inl ⟨n, rfl, occ_iff.2 ⟨by omega, hb.1 rfl⟩, fun j hj => hno j (by omega)⟩⟩
    | false =>
      rw [if_neg (by simp)]
      refine ih (by omega) fun j hj => ?_
      by_cases hjn : j = n
      · subst hjn
        intro ho
        have := hb.2 (occ_iff.1 ho).2
        simp at this
      · exact hno j (by omega)

theorem prefixLoop_spec {s : Str} {start : Nat} (cs : Str) (i : Nat) (h : start + i + cs.length ≤ s.length) :
    ∃ b, prefixLoop s start cs i = .ok b ∧ (b = true ↔ cs <+: s.drop (start + i)) := by
  induction cs generalizing i with
  | nil => exact ⟨true, rfl, by simp⟩
  | cons c cs ih =>
    unfold prefixLoop
    simp only [List.length_cons] at h
    have h1 : start + i < s.length := by omega
    rw [at_lt h1, Res.bind_ok, drop_cons h1, List.cons_prefix_cons]
    by_cases hx : s[start + i] = c
    · rw [if_neg (by simpa using hx)]
      obtain ⟨b, e, hb⟩ := ih (i + 1) (by omega)
      exact ⟨b, e, by rw [hb, show start + i + 1 = start + (i + 1) by omega]; simp [hx]⟩
    · rw [if_pos hx]
      exact ⟨false, rfl, by simp only [Bool.false_eq_true, false_iff]; rintro ⟨e, _⟩; exact hx e.symm⟩

theorem slice_ok {s : Str} {a b : Nat} (h1 : a ≤ b) (h2 : b ≤ s.length) : slice s a b = .ok ((s.drop a).take (b - a)) := by
  unfold slice
  have hb : ¬ ((b : Int) = -1) := by omega
  simp only [if_neg hb]
  rw [if_neg (by omega), if_neg (by omega), show ((b : Int) - (a : Int)).toNat = b - a by omega, Int.toNat_natCast]

/-! ### split and join -/

/-- Result of the split loop from `i`: the pieces glue back to the rest, possibly without a final separator. -/
theorem splitLoop_spec {s sep : Str} (hsep : sep ≠ []) (hp : Plain s sep) (f i : Nat) (hf : s.length < f + i) (hi : i ≤ s.length) :
    ∃ l, splitLoop s sep f i = .ok l ∧
      ((i < s.length → l ≠ []) ∧ (i = s.length → l = [])) ∧
      (glue sep l = s.drop i ∨ (l ≠ [] ∧ glue sep l ++ sep = s.drop i)) ∧ (∀ p ∈ l, ∀ j, ¬ OccursAt p sep j) := by
  induction f generalizing i with
  | zero => omega
  | succ f ih =>
    unfold splitLoop
    have hlen : 0 < sep.length := List.length_pos_iff.2 hsep
    by_cases h : i < s.length
    · rw [if_pos h]
      obtain ⟨r, e, hr⟩ := findAfter_spec hsep hp hi
      rw [e, Res.bind_ok]
      rcases hr with ⟨k, rfl, h1, h2, h3⟩ | ⟨rfl, h1⟩
      · rw [if_neg (by omega)]
        have hk := occ_len h2
        rw [slice_ok h1 (by omega), Res.bind_ok, Int.toNat_natCast]
        obtain ⟨l, e', ⟨hne, hnil⟩, hg, hno⟩ := ih (k + sep.length) (by omega) hk
        rw [e', Res.bind_ok]
        have hdrop : s.drop i = (s.drop i).take (k - i) ++ sep ++ s.drop (k + sep.length) := by
          obtain ⟨t, ht⟩ := (occ_iff.1 h2).2
          have h4 : (s.drop i).drop (k - i) = s.drop k := by rw [List.drop_drop]; congr 1; omega
          have h5 : s.drop (k + sep.length) = t := by
            rw [← List.drop_drop, ← ht, List.drop_left' rfl]
          rw [h5, List.append_assoc, ht, ← h4, List.take_append_drop]
        refine ⟨_, rfl, ⟨fun _ => by simp, fun h => by omega⟩, ?_, ?_⟩
        · cases l with
          | nil =>
            right
            refine ⟨by simp, ?_⟩
            have h6 : s.drop (k + sep.length) = [] := by
              rcases hg with hg | hg
              · rw [← hg]; rfl
              · exact absurd rfl hg.1
            conv => rhs; rw [hdrop, h6, List.append_nil]
            rfl
          | cons q l =>
            rcases hg with hg | ⟨_, hg⟩
            · left
              rw [glue, hg, ← hdrop]
            · right
              refine ⟨by simp, ?_⟩
              rw [glue, List.append_assoc, hg, ← hdrop]
        · intro p hp'
          rcases List.mem_cons.1 hp' with rfl | hp'
          · intro j ho
            have hj := occ_len ho
            simp only [List.length_take, List.length_drop] at hj
            refine h3 (i + j) (by omega) (by omega) (occ_iff.2 ⟨by omega, ?_⟩)
            have := (occ_iff.1 ho).2
            rw [List.drop_take] at this
            have := this.trans (List.take_prefix _ _)
            rwa [List.drop_drop] at this
          · exact hno p hp'
      · rw [if_pos rfl, slice_ok (by omega) (Nat.le_refl _), Res.bind_ok]
        have ht : (s.drop i).take (s.length - i) = s.drop i := List.take_of_length_le (by simp)
        rw [ht]
        refine ⟨_, rfl, ⟨fun _ => by simp, fun h => by omega⟩, Or.inl rfl, ?_⟩
        intro p hp' j ho
        rw [List.mem_singleton] at hp'
        subst hp'
        have hj := occ_len ho
        simp only [List.length_drop] at hj
        refine h1 (i + j) (by omega) (occ_iff.2 ⟨by omega, ?_⟩)
        have := (occ_iff.1 ho).2
        rwa [List.drop_drop] at this
    · rw [if_neg h]
      exact ⟨[], rfl, ⟨fun h' => absurd h' h, fun _ => rfl⟩, Or.inl (by rw [List.drop_eq_nil_of_le (by omega)]; rfl), by simp⟩

theorem joinLoop_spec (sep : Str) (n : Nat) (l : List Str) (i : Nat) (r : Str) (h : i + l.length = n) :
    joinLoop sep n l i r = r ++ glue sep l := by
  induction l generalizing i r with
  | nil => simp [joinLoop, glue]
  | cons p ps ih =>
    unfold joinLoop
    simp only [List.length_cons] at h
    rw [ih (i + 1) _ (by omega)]
    cases ps with
    | nil =>
      rw [if_neg (by simp at h; omega)]
      simp [glue]
    | cons q qs =>
      rw [if_pos (by simp at h; omega)]
      simp [glue]

theorem join_eq (l : List Str) (sep : Str) : join l sep = glue sep l := by
  unfold join
  by_cases h : l.length = 0
  · rw [if_pos h, List.eq_nil_of_length_eq_zero h]; rfl
  · rw [if_neg h, joinLoop_spec sep _ l 0 [] (by omega)]; rfl

theorem glue_nil (l : List Str) : glue [] l = l.flatten := by
  induction l with
  | nil => rfl
  | cons p ps ih =>
    cases ps with
    | nil => simp [glue]
    | cons q qs => rw [glue, ih]; simp

/-! ### reverse, trim, replace, case -/

theorem reverseLoop_spec (len : Nat) (cs : Str) (i : Nat) (r : Str) (hr : r.length = len) (hi : i + cs.length = len) :
    ∃ r', reverseLoop len cs i r = .ok r' ∧ r' = cs.reverse ++ r.drop cs.length := by
  induction cs generalizing i r with
  | nil => exact ⟨r, rfl, by simp⟩
  | cons c cs ih =>
    unfold reverseLoop put
    simp only [List.length_cons] at hi
    rw [if_pos (by omega), Res.bind_ok]
    obtain ⟨r', e, hr'⟩ := ih (i + 1) (r.set (len - 1 - i) c) (by simpa using hr) (by omega)
    refine ⟨r', e, ?_⟩
    rw [hr', show len - 1 - i = cs.length by omega, List.reverse_cons, List.append_assoc]
    congr 1
    rw [List.drop_eq_getElem_cons (by simp; omega)]
    simp only [List.getElem_set_self, List.length_cons, List.singleton_append]
    rw [List.drop_set_of_lt (by omega)]

theorem mapLoop_spec (f : Byte → Byte) (cs : Str) (i : Nat) (r : Str) (hi : i + cs.length = r.length) :
    mapLoop f cs i r = .ok (r.take i ++ cs.map f) := by
  induction cs generalizing i r with
  | nil => unfold mapLoop; rw [List.take_of_length_le (by simp at hi; omega)]; simp
  | cons c cs ih =>
    unfold mapLoop put
    simp only [List.length_cons] at hi
    rw [if_pos (by omega), Res.bind_ok, ih (i + 1) _ (by simp; omega)]
    rw [List.take_add_one, List.getElem?_set_self (by omega), List.take_set_of_le (Nat.le_refl _)]
    simp

theorem cutSet_spec (l : List Str) (h : ∀ t ∈ l, t ≠ []) : ∃ cut, cutSet l = .ok cut ∧ ∀ c, c ∈ cut ↔ ∃ t ∈ l, t.head? = some c := by
  induction l with
  | nil => exact ⟨[], rfl, by simp⟩
  | cons t l ih =>
    obtain ⟨cut, e, hc⟩ := ih fun t ht => h t (List.mem_cons_of_mem _ ht)
    cases t with
    | nil => exact absurd rfl (h [] List.mem_cons_self)
    | cons x t =>
      refine ⟨x :: cut, by unfold cutSet; rw [e]; rfl, ?_⟩
      intro c
      rw [List.mem_cons, hc]
      simp
      constructor
      · rintro (rfl | h)
        · exact Or.inl rfl
        · exact Or.inr h
      · rintro (h | h)
        · exact Or.inl h.symm
        · exact Or.inr h

theorem ltrimLoop_spec (s : Str) (cut : List Byte) (cs : Str) (i : Nat) (h : cs = s.drop i) (hi : i ≤ s.length) :
    ltrimLoop s cut cs i = .ok (cs.dropWhile fun c => decide (c ∈ cut)) := by
  induction cs generalizing i with
  | nil => rfl
  | cons c cs ih =>
    have hl : i < s.length := by
      have := congrArg List.length h
      simp at this; omega
    rw [drop_cons hl] at h
    obtain ⟨h1, h2⟩ := List.cons.inj h
    unfold ltrimLoop
    by_cases hc : c ∈ cut
    · rw [if_pos hc, ih (i + 1) h2 (by omega), List.dropWhile_cons_of_pos (by simpa using hc)]
    · rw [if_neg hc, slice_ok (by omega) (Nat.le_refl _), List.dropWhile_cons_of_neg (by simpa using hc),
        List.take_of_length_le (by simp), drop_cons hl, h1, h2]

theorem rtrimLoop_spec (s : Str) (cut : List Byte) (n : Nat) (h : n ≤ s.length) :
    rtrimLoop s cut n = .ok (((s.take n).reverse.dropWhile fun c => decide (c ∈ cut)).reverse) := by
  induction n with
  | zero => rfl
  | succ n ih =>
    unfold rtrimLoop
    have hn : n < s.length := by omega
    rw [at_lt hn, Res.bind_ok]
    have ht : s.take (n + 1) = s.take n ++ [s[n]] := by
      rw [List.take_add_one, List.getElem?_eq_getElem hn]; rfl
    by_cases hc : s[n] ∈ cut
    · rw [if_pos hc, ih (by omega), ht, List.reverse_append]
      simp only [List.reverse_singleton, List.singleton_append]
      rw [List.dropWhile_cons_of_pos (by simpa using hc)]
    · rw [if_neg hc, ht, List.reverse_append]
      simp only [List.reverse_singleton, List.singleton_append]
      rw [List.dropWhile_cons_of_neg (by simpa using hc)]
      have := slice_ok (s := s) (a := 0) (b := n + 1) (by omega) (by omega)
      simp only [Int.natCast_add, Int.cast_ofNat_Int, List.drop_zero, Nat.sub_zero] at this
      rw [show ((n : Int) + 1) = ((n : Int) + (1 : Nat)) by rfl]
      refine Eq.trans this ?_
      rw [ht]; simp

theorem occ_drop {s sub : Str} {i j : Nat} (hi : i ≤ s.length) : OccursAt (s.drop i) sub j ↔ OccursAt s sub (i + j) := by
  rw [occ_iff, occ_iff, List.drop_drop, List.length_drop]
  constructor
  · rintro ⟨h1, h2⟩; exact ⟨by omega, h2⟩
  · rintro ⟨h1, h2⟩; exact ⟨by omega, h2⟩

theorem replaceLoop_spec {s old : Str} (new : Str) (hold : old ≠ []) (hp : Plain s old) (f i : Nat) (r : Str) (hf : s.length < f + i)
    (hi : i ≤ s.length) : ∃ q, replaceLoop s old new f i r = .ok (r ++ q) ∧ Replaced old new (s.drop i) q := by
  induction f generalizing i r with
  | zero => omega
  | succ f ih =>
    unfold replaceLoop
    have hlen : 0 < old.length := List.length_pos_iff.2 hold
    by_cases h : i < s.length
    · rw [if_pos h]
      obtain ⟨k, e, hr⟩ := findAfter_spec hold hp hi
      rw [e, Res.bind_ok]
      rcases hr with ⟨k, rfl, h1, h2, h3⟩ | ⟨rfl, h1⟩
      · rw [if_neg (by omega)]
        have hk := occ_len h2
        rw [slice_ok h1 (by omega), Res.bind_ok, Int.toNat_natCast]
        obtain ⟨q, e', hq⟩ := ih (k + old.length) (r ++ (s.drop i).take (k - i) ++ new) (by omega) hk
        have hdrop : s.drop i = (s.drop i).take (k - i) ++ old ++ s.drop (k + old.length) := by
          obtain ⟨t, ht⟩ := (occ_iff.1 h2).2
          have h4 : (s.drop i).drop (k - i) = s.drop k := by rw [List.drop_drop]; congr 1; omega
          have h5 : s.drop (k + old.length) = t := by
            rw [← List.drop_drop, ← ht, List.drop_left' rfl]
          rw [h5, List.append_assoc, ht, ← h4, List.take_append_drop]
        refine ⟨(s.drop i).take (k - i) ++ new ++ q, by rw [e']; simp, ?_⟩
        have := Replaced.step (old := old) (new := new) ((s.drop i).take (k - i)) (s.drop (k + old.length)) q (by
          intro j hj ho
          rw [← hdrop, occ_drop hi] at ho
          simp only [List.length_take, List.length_drop] at hj
          exact h3 (i + j) (by omega) (by omega) ho) hq
        rwa [← hdrop] at this
      · rw [if_pos rfl, slice_ok (by omega) (Nat.le_refl _), Res.bind_ok, List.take_of_length_le (by simp)]
        refine ⟨_, rfl, .none _ fun j ho => ?_⟩
        rw [occ_drop hi] at ho
        exact h1 (i + j) (by omega) ho
    · rw [if_neg h]
      refine ⟨[], by simp, ?_⟩
      rw [List.drop_eq_nil_of_le (by omega)]
      refine .none _ fun j ho => ?_
      have := occ_len ho
      simp only [List.length_nil] at this; omega

theorem mem_takeWhile {q : Byte → Bool} {c : Byte} {l : Str} (h : c ∈ l.takeWhile q) : q c = true := by
  induction l with
  | nil => simp at h
  | cons x l ih =>
    rw [List.takeWhile_cons] at h
    by_cases hx : q x = true
    · rw [if_pos hx] at h
      rcases List.mem_cons.1 h with rfl | h
      · exact hx
      · exact ih h
    · rw [if_neg hx] at h
      simp at h

/-! ### to_int -/

def isDigit (c : Byte) : Prop := 48 ≤ c.toNat ∧ c.toNat ≤ 57

theorem digit_sub {c : Byte} (h : isDigit c) : (c - 48#8).toNat = c.toNat - 48 := by
  unfold isDigit at h
  rw [BitVec.toNat_sub]
  have := c.isLt
  simp
  omega

/-- Value after reading digits from an accumulator. -/
def accVal (r : Nat) (ds : Str) : Nat := ds.foldl (fun n d => 10 * n + (d.toNat - 48)) r

theorem accVal_ge (r : Nat) (ds : Str) : r ≤ accVal r ds := by
  induction ds generalizing r with
  | nil => exact Nat.le_refl _
  | cons d ds ih =>
    have := ih (10 * r + (d.toNat - 48))
    unfold accVal at this ⊢
    rw [List.foldl_cons]
    omega

theorem digitLoop_spec (s : Str) (f i : Nat) (r : Nat) (h : f = s.length - i) :
    (digitLoop s f i r = .ok (accVal r (s.drop i) : Int) ∧ (∀ d ∈ s.drop i, isDigit d) ∧
      (i < s.length → accVal r (s.drop i) ≤ 2147483649)) ∨
    (digitLoop s f i r = .throws ∧ ((∃ d ∈ s.drop i, ¬ isDigit d) ∨ accVal r (s.drop i) > 2147483649)) := by
  induction f generalizing i r with
  | zero =>
    left
    rw [List.drop_eq_nil_of_le (by omega)]
    exact ⟨rfl, by simp, by omega⟩
  | succ f ih =>
    have hi : i < s.length := by omega
    unfold digitLoop
    rw [at_lt hi, Res.bind_ok, drop_cons hi]
    by_cases hd : s[i].toNat < 48 ∨ s[i].toNat > 57
    · rw [if_pos hd]
      exact Or.inr ⟨rfl, Or.inl ⟨_, List.mem_cons_self, by unfold isDigit; omega⟩⟩
    · rw [if_neg hd]
      have hdig : isDigit s[i] := by unfold isDigit; omega
      by_cases hr : (r : Int) > 2147483647 / 10
      · rw [if_pos hr]
        refine Or.inr ⟨rfl, Or.inr ?_⟩
        have := accVal_ge (10 * r + (s[i].toNat - 48)) (s.drop (i + 1))
        unfold accVal at this ⊢
        rw [List.foldl_cons]
        omega
      · rw [if_neg hr, digit_sub hdig]
        have hcast : (r : Int) * 10 + ((s[i].toNat - 48 : Nat) : Int) = ((10 * r + (s[i].toNat - 48) : Nat) : Int) := by omega
        rw [hcast]
        rcases ih (i + 1) (10 * r + (s[i].toNat - 48)) (by omega) with ⟨e, h1, h2⟩ | ⟨e, h1⟩
        · left
          refine ⟨e, ?_, fun _ => ?_⟩
          · intro d hd'
            rcases List.mem_cons.1 hd' with rfl | hd'
            · exact hdig
            · exact h1 d hd'
          · by_cases hlast : i + 1 < s.length
            · exact h2 hlast
            · rw [List.drop_eq_nil_of_le (by omega)]
              unfold accVal isDigit at *
              simp
              omega
        · right
          refine ⟨e, ?_⟩
          rcases h1 with ⟨d, h2, h3⟩ | h1
          · exact Or.inl ⟨d, List.mem_cons_of_mem _ h2, h3⟩
          · exact Or.inr h1

theorem skipSpaces_spec (s : Str) (start f i : Nat) (h : f = s.length - i) :
    (∃ k, skipSpaces s start f i = .ok (i + k) ∧ s.drop i = List.replicate k 32#8 ++ s.drop (i + k) ∧ i + k < s.length ∧
      (s.drop (i + k)).head? ≠ some 32#8) ∨
    (skipSpaces s start f i = .ok start ∧ s.drop i = List.replicate (s.length - i) 32#8) := by
  induction f generalizing i with
  | zero =>
    right
    refine ⟨rfl, ?_⟩
    rw [List.drop_eq_nil_of_le (by omega), show s.length - i = 0 by omega]; rfl
  | succ f ih =>
    have hi : i < s.length := by omega
    unfold skipSpaces
    rw [at_lt hi, Res.bind_ok]
    by_cases hc : s[i] = 32#8
    · rw [if_neg (by simpa using hc)]
      rcases ih (i + 1) (by omega) with ⟨k, e, h1, h2, h3⟩ | ⟨e, h1⟩
      · left
        refine ⟨k + 1, by rw [e]; congr 1; omega, ?_, by omega, by rw [show i + (k + 1) = i + 1 + k by omega]; exact h3⟩
        rw [drop_cons hi, hc, h1, show i + (k + 1) = i + 1 + k by omega]; rfl
      · right
        refine ⟨e, ?_⟩
        rw [drop_cons hi, hc, h1, show s.length - i = s.length - (i + 1) + 1 by omega]; rfl
    · rw [if_pos hc]
      left
      refine ⟨0, rfl, by simp, by omega, ?_⟩
      rw [Nat.add_zero, drop_cons hi, List.head?_cons]
      exact fun h => hc (Option.some.inj h)

end Nature.Strings
