import Verif.Inflate.Bits

/-!
# Huffman trees decode the codes of the standard
-/

namespace Nature.Inflate

open Spec (bitsOf number Bits nextByte count firstCode code codeBits Symbol weight Complete Single NoCodes)

/-! ### Numbers of codes -/

/-- The first word behind the codes of `l` bits. -/
def bound (lens : List Nat) (l : Nat) : Nat := firstCode lens l + count lens l

/-- The number of symbols with shorter codes. -/
def base (lens : List Nat) : Nat → Nat
  | 0 => 0
  | l + 1 => base lens l + count lens l

theorem firstCode_succ (lens : List Nat) (l : Nat) : firstCode lens (l + 1) = bound lens l * 2 := rfl

theorem bound_succ (lens : List Nat) (l : Nat) : bound lens (l + 1) = bound lens l * 2 + count lens (l + 1) := rfl

theorem bound_zero (lens : List Nat) : bound lens 0 = 0 := rfl

theorem bound_le (lens : List Nat) (l : Nat) : ∀ k, bound lens l * 2 ^ (k + 1) ≤ firstCode lens (l + k + 1) := by
  intro k
  induction k with
  | zero => rw [firstCode_succ]; simp
  | succ k ih =>
    rw [show l + (k + 1) + 1 = (l + k + 1) + 1 by omega, firstCode_succ, Nat.pow_succ, ← Nat.mul_assoc]
    exact Nat.mul_le_mul_right _ (Nat.le_trans ih (Nat.le_add_right _ _))

theorem bound_le' (lens : List Nat) {l m : Nat} (h : l < m) : bound lens l * 2 ^ (m - l) ≤ firstCode lens m := by
  have := bound_le lens l (m - l - 1)
  rw [show m - l - 1 + 1 = m - l by omega, show l + (m - l - 1) + 1 = m by omega] at this
  exact this

theorem count_cons (a : Nat) (lens : List Nat) (l : Nat) (h : l ≠ 0) : count (a :: lens) l = count lens l + if a = l then 1 else 0 := by
  simp only [count, if_neg h, List.count_cons, beq_iff_eq]

/-- The codes up to `n` bits, as a share of the words of `n` bits. -/
def share (n : Nat) (lens : List Nat) : Nat := (lens.map fun l => if l = 0 ∨ n < l then 0 else 2 ^ (n - l)).sum

theorem share_zero (lens : List Nat) : share 0 lens = 0 := by
  induction lens with
  | nil => rfl
  | cons a lens ih =>
    simp only [share, List.map_cons, List.sum_cons] at ih ⊢
    rw [ih, if_pos (by omega)]

theorem share_succ (n : Nat) (lens : List Nat) : share (n + 1) lens = 2 * share n lens + count lens (n + 1) := by
  induction lens with
  | nil => rfl
  | cons a lens ih =>
    rw [count_cons a lens (n + 1) (by omega)]
    simp only [share, List.map_cons, List.sum_cons] at ih ⊢
    rw [ih]
    by_cases h0 : a = 0
    · simp [h0]
    · by_cases h1 : n + 1 < a
      · rw [if_pos (.inr h1), if_pos (.inr (by omega)), if_neg (show ¬ a = n + 1 by omega)]; omega
      · by_cases h2 : a = n + 1
        · rw [if_neg (by omega), if_pos (.inr (by omega)), if_pos h2, h2, Nat.sub_self, Nat.pow_zero]; omega
        · rw [if_neg (by omega), if_neg (by omega), if_neg h2, show n + 1 - a = (n - a) + 1 by omega, Nat.pow_succ]; omega

theorem bound_share (lens : List Nat) : ∀ n, bound lens n = share n lens := by
  intro n
  induction n with
  | zero => rw [share_zero]; rfl
  | succ n ih => rw [bound_succ, share_succ, ih]; omega

theorem share_weight {n : Nat} {lens : List Nat} (h : ∀ l, l ∈ lens → l ≤ n) : share n lens = (lens.map (weight n)).sum := by
  rw [share]
  congr 1
  apply List.map_congr_left
  intro l hl
  have := h l hl
  rw [weight]
  by_cases h0 : l = 0
  · rw [if_pos (.inl h0), if_pos h0]
  · rw [if_neg (by omega), if_neg h0]

theorem base_le (lens : List Nat) : ∀ n, base lens n = lens.countP fun x => decide (0 < x ∧ x < n) := by
  intro n
  induction n with
  | zero => rw [base]; symm; rw [List.countP_eq_zero]; intro a _; simp
  | succ n ih =>
    rw [base, ih]
    clear ih
    induction lens with
    | nil => simp [count]
    | cons a lens ih =>
      rw [List.countP_cons, List.countP_cons]
      by_cases h0 : n = 0
      · subst h0
        simp only [count, if_true] at ih ⊢
        rw [if_neg (by simp), if_neg (by simp; omega)]
        omega
      · rw [count_cons a lens n h0]
        by_cases h1 : a = n
        · rw [if_pos h1, if_neg (by simp; omega), if_pos (by simp; omega)]; omega
        · rw [if_neg h1]
          by_cases h2 : 0 < a ∧ a < n
          · rw [if_pos (by simp; omega), if_pos (by simp; omega)]; omega
          · rw [if_neg (by simp; omega), if_neg (by simp; omega)]; omega

theorem base_count (lens : List Nat) (l : Nat) : base lens l + count lens l ≤ lens.length := by
  have : base lens (l + 1) ≤ lens.length := by rw [base_le]; exact List.countP_le_length
  exact this

theorem base_mono (lens : List Nat) {l m : Nat} (h : l < m) : base lens l + count lens l ≤ base lens m := by
  induction m with
  | zero => omega
  | succ m ih =>
    by_cases e : l = m
    · subst e; exact Nat.le_refl _
    · have := ih (by omega); rw [base]; omega

/-- Symbols of one length, by rank. -/
theorem exists_rank (lens : List Nat) (l : Nat) : ∀ q, q < lens.count l → ∃ s, lens[s]? = some l ∧ (lens.take s).count l = q := by
  induction lens with
  | nil => intro q h; simp at h
  | cons a lens ih =>
    intro q h
    rw [List.count_cons] at h
    by_cases e : a = l
    · subst e
      cases q with
      | zero => exact ⟨0, rfl, rfl⟩
      | succ q =>
        obtain ⟨s, h1, h2⟩ := ih q (by simp at h; omega)
        refine ⟨s + 1, by simpa using h1, ?_⟩
        rw [List.take_succ_cons, List.count_cons, h2]; simp
    · obtain ⟨s, h1, h2⟩ := ih q (by simp [e] at h; omega)
      refine ⟨s + 1, by simpa using h1, ?_⟩
      rw [List.take_succ_cons, List.count_cons, h2]; simp [e]

theorem rank_lt {lens : List Nat} {s l : Nat} (h : lens[s]? = some l) : (lens.take s).count l < lens.count l := by
  induction lens generalizing s with
  | nil => simp at h
  | cons a lens ih =>
    cases s with
    | zero =>
      simp at h
      subst h
      simp
    | succ s =>
      have := ih (s := s) (by simpa using h)
      rw [List.take_succ_cons, List.count_cons, List.count_cons]
      omega

/-! ### Building -/

/-- A tree for lengths of codes. -/
structure IsTree (t : Tree) (lens : List Nat) : Prop where
  counts : ∀ i, t.counts i = count lens i
  symbolCount : t.symbolCount = lens.length
  small : lens.length ≤ 288
  bits : t.maxBits ≤ 15
  short : ∀ l, l ∈ lens → l ≤ t.maxBits
  fits : ∀ b, b ≤ t.maxBits → bound lens b ≤ 2 ^ b
  symbols : ∀ s l, lens[s]? = some l → l ≠ 0 → t.symbols (base lens l + (lens.take s).count l) = s

theorem countLengths_spec {maxBits : Nat} (hm : maxBits ≤ 15) : ∀ (ls : List Nat) (counts : Nat → Nat) (mx : Nat),
    match countLengths maxBits ls (counts, mx) with
    | .ok p => (∀ l, l ∈ ls → l ≤ maxBits) ∧ (∀ i, p.1 i = counts i + count ls i) ∧ (∀ l, l ∈ ls → l ≤ p.2) ∧ mx ≤ p.2 ∧ (p.2 = mx ∨ p.2 ∈ ls)
    | .err _ => ∃ l, l ∈ ls ∧ maxBits < l
    | .fault => False := by
  intro ls
  induction ls with
  | nil => intro counts mx; simp [countLengths, count]
  | cons l ls ih =>
    intro counts mx
    rw [countLengths]
    by_cases h1 : l > maxBits
    · rw [if_pos h1]; exact ⟨l, by simp, h1⟩
    · rw [if_neg h1]
      by_cases h0 : l = 0
      · rw [if_pos h0]
        have := ih counts mx
        revert this
        generalize countLengths maxBits ls (counts, mx) = y
        intro this
        cases y with
        | fault => exact this
        | err e => obtain ⟨x, h, h'⟩ := this; exact ⟨x, by simp [h], h'⟩
        | ok p =>
          obtain ⟨a, b, c, d, e⟩ := this
          refine ⟨?_, ?_, ?_, d, ?_⟩
          · intro x hx
            rcases List.mem_cons.1 hx with rfl | hx
            · omega
            · exact a x hx
          · intro i
            rw [b i]
            by_cases hi : i = 0
            · subst hi; rfl
            · rw [count_cons _ _ _ hi, if_neg (by omega)]; omega
          · intro x hx
            rcases List.mem_cons.1 hx with rfl | hx
            · omega
            · exact c x hx
          · rcases e with e | e
            · exact .inl e
            · exact .inr (by simp [e])
      · rw [if_neg h0, if_pos (by omega)]
        have := ih (fun i => if i = l then counts i + 1 else counts i) (if l > mx then l else mx)
        revert this
        generalize countLengths maxBits ls _ = y
        intro this
        cases y with
        | fault => exact this
        | err e => obtain ⟨x, h, h'⟩ := this; exact ⟨x, by simp [h], h'⟩
        | ok p =>
          obtain ⟨a, b, c, d, e⟩ := this
          have hlp : l ≤ p.2 ∧ mx ≤ p.2 := by split at d <;> omega
          refine ⟨?_, ?_, ?_, hlp.2, ?_⟩
          · intro x hx
            rcases List.mem_cons.1 hx with rfl | hx
            · omega
            · exact a x hx
          · intro i
            rw [b i]
            by_cases hi : i = 0
            · subst hi; rw [if_neg (by omega)]; rfl
            · rw [count_cons _ _ _ hi]
              by_cases h : i = l
              · rw [if_pos h, if_pos h.symm]; omega
              · rw [if_neg h, if_neg (fun h' => h h'.symm)]; rfl
          · intro x hx
            rcases List.mem_cons.1 hx with rfl | hx
            · exact hlp.1
            · exact c x hx
          · rcases e with e | e
            · split at e
              · exact .inr (by rw [e]; simp)
              · exact .inl e
            · exact .inr (by simp [e])

theorem codesLeft_spec {lens : List Nat} {counts : Nat → Nat} (hc : ∀ i, counts i = count lens i) : ∀ (n b : Nat) (left : Int), b + 1 + n ≤ 16 →
    left = 2 ^ b - (bound lens b : Int) →
    match codesLeft counts n (b + 1) left with
    | .ok left' => left' = 2 ^ (b + n) - (bound lens (b + n) : Int) ∧ ∀ i, b < i → i ≤ b + n → bound lens i ≤ 2 ^ i
    | .err _ => ∃ i, i ≤ b + n ∧ 2 ^ i < bound lens i
    | .fault => False := by
  intro n
  induction n with
  | zero => intro b left _ h; exact ⟨h, fun i h1 h2 => by omega⟩
  | succ n ih =>
    intro b left hb h
    rw [codesLeft, if_pos (by omega)]
    have e : left * 2 - (counts (b + 1) : Int) = 2 ^ (b + 1) - (bound lens (b + 1) : Int) := by
      rw [h, hc, bound_succ, Int.pow_succ]
      push_cast
      omega
    simp only [e]
    have hp : ((2 : Nat) ^ (b + 1) : Nat) = (2 : Int) ^ (b + 1) := by push_cast; rfl
    by_cases hneg : (2 : Int) ^ (b + 1) - (bound lens (b + 1) : Int) < 0
    · rw [if_pos hneg]
      exact ⟨b + 1, by omega, by omega⟩
    · rw [if_neg hneg]
      have := ih (b + 1) _ (by omega) rfl
      revert this
      generalize codesLeft counts n (b + 1 + 1) _ = y
      intro this
      cases y with
      | fault => exact this
      | err e => obtain ⟨i, h1, h2⟩ := this; exact ⟨i, by omega, h2⟩
      | ok l' =>
        obtain ⟨h1, h2⟩ := this
        refine ⟨by rw [show b + (n + 1) = b + 1 + n by omega]; exact h1, fun i hi hi' => ?_⟩
        by_cases hib : i = b + 1
        · subst hib; omega
        · exact h2 i (by omega) (by omega)

theorem startOffsets_spec {lens : List Nat} {counts : Nat → Nat} (hc : ∀ i, counts i = count lens i) : ∀ (n b : Nat) (offsets : Nat → Nat),
    b + n ≤ 15 → (∀ i, 1 ≤ i → i ≤ b → offsets i = base lens i) → 1 ≤ b →
    ∃ o', startOffsets counts n b offsets = .ok o' ∧ ∀ i, 1 ≤ i → i ≤ b + n → o' i = base lens i := by
  intro n
  induction n with
  | zero => intro b o _ h _; exact ⟨o, rfl, h⟩
  | succ n ih =>
    intro b o hb h h1
    rw [startOffsets, if_pos (by omega)]
    obtain ⟨o', h2, h3⟩ := ih (b + 1) (fun i => if i = b + 1 then o b + counts b else o i) (by omega) (by
      intro i hi hi'
      by_cases e : i = b + 1
      · simp only [if_pos e]; rw [e, base, h b h1 (Nat.le_refl _), hc]
      · simp only [if_neg e]; exact h i hi (by omega)) (by omega)
    exact ⟨o', h2, fun i hi hi' => h3 i hi (by omega)⟩

theorem sortSymbols_spec {lens : List Nat} (hl : lens.length ≤ 288) (hm : ∀ l, l ∈ lens → l ≤ 15) : ∀ (ls pre : List Nat) (offsets symbols : Nat → Nat),
    lens = pre ++ ls → (∀ l, l ≠ 0 → l ∈ lens → offsets l = base lens l + pre.count l) →
    (∀ (s l : Nat), pre[s]? = some l → l ≠ 0 → symbols (base lens l + (pre.take s).count l) = s) →
    ∃ sy, sortSymbols ls pre.length offsets symbols = .ok sy ∧
      ∀ (s l : Nat), lens[s]? = some l → l ≠ 0 → sy (base lens l + (lens.take s).count l) = s := by
  intro ls
  induction ls with
  | nil =>
    intro pre o sy he _ hs
    rw [List.append_nil] at he
    subst he
    exact ⟨sy, rfl, hs⟩
  | cons l ls ih =>
    intro pre o sy he ho hs
    have hmem : l ∈ lens := by rw [he]; simp
    have he' : lens = (pre ++ [l]) ++ ls := by rw [he]; simp
    have hlen : (pre ++ [l]).length = pre.length + 1 := by simp
    have hget : ∀ (s k : Nat), (pre ++ [l])[s]? = some k → (pre[s]? = some k ∧ s < pre.length ∧ (pre ++ [l]).take s = pre.take s) ∨
        (s = pre.length ∧ k = l ∧ (pre ++ [l]).take s = pre) := by
      intro s k h
      by_cases hs : s < pre.length
      · rw [List.getElem?_append_left hs] at h
        exact .inl ⟨h, hs, by rw [List.take_append_of_le_length (by omega)]⟩
      · rw [List.getElem?_append_right (by omega)] at h
        have : s - pre.length = 0 := by
          by_cases h0 : s - pre.length = 0
          · exact h0
          · rw [List.getElem?_eq_none (by simp; omega)] at h; simp at h
        rw [this] at h
        simp at h
        exact .inr ⟨by omega, h.symm, by rw [show s = pre.length by omega, List.take_left']; rfl⟩
    rw [sortSymbols]
    by_cases h0 : l = 0
    · rw [if_neg (by omega)]
      have := ih (pre ++ [l]) o sy he' (by
        intro k hk hk'
        rw [ho k hk hk', List.count_append, List.count_cons]
        simp [show ¬ l = k by omega]) (by
        intro s k h hk
        rcases hget s k h with ⟨a, _, c⟩ | ⟨_, b, _⟩
        · rw [c]; exact hs s k a hk
        · omega)
      rw [hlen] at this
      exact this
    · have hcnt : pre.count l < lens.count l := by rw [he, List.count_append, List.count_cons]; simp
      have hcl : count lens l = lens.count l := by rw [count, if_neg h0]
      have hlt := base_count lens l
      have hol := ho l h0 hmem
      rw [if_pos h0, if_pos ⟨by have := hm l hmem; omega, by rw [hol]; omega⟩]
      have := ih (pre ++ [l]) (fun i => if i = l then o i + 1 else o i) (fun i => if i = o l then pre.length else sy i) he' (by
        intro k hk hk'
        rw [List.count_append, List.count_cons]
        by_cases e : k = l
        · subst e; simp [ho k hk hk']; omega
        · simp [e, Ne.symm e, ho k hk hk']) (by
        intro s k h hk
        rcases hget s k h with ⟨a, b, c⟩ | ⟨a, b, c⟩
        · rw [c]
          have hr := rank_lt a
          have hmk : k ∈ lens := by rw [he]; exact List.mem_append_left _ (List.mem_of_getElem? a)
          have hpk : pre.count k ≤ lens.count k := by rw [he, List.count_append]; omega
          have hck : count lens k = lens.count k := by rw [count, if_neg hk]
          have hne : base lens k + (pre.take s).count k ≠ o l := by
            rw [hol]
            rcases Nat.lt_trichotomy k l with hkl | hkl | hkl
            · have := base_mono lens hkl; omega
            · subst hkl; omega
            · have := base_mono lens hkl; omega
          simp only [if_neg hne]
          exact hs s k a hk
        · subst b
          rw [c, ← hol]; simp [a])
      rw [hlen] at this
      exact this

/-- Lengths that a tree can be built for. -/
def Valid (n : Nat) (single requireEnd : Bool) (lens : List Nat) : Prop :=
  (requireEnd = true → ∃ l, lens[256]? = some l ∧ l ≠ 0) ∧ (Complete n lens ∨ (single = true ∧ Single lens) ∨ NoCodes lens)

theorem bound_mono {lens : List Nat} {n b : Nat} (hb : b ≤ n) (h : bound lens n ≤ 2 ^ n) : bound lens b ≤ 2 ^ b := by
  by_cases e : b = n
  · subst e; exact h
  · have h1 := bound_le' lens (show b < n by omega)
    have h2 : bound lens b * 2 ^ (n - b) ≤ 2 ^ b * 2 ^ (n - b) := by
      rw [← Nat.pow_add, show b + (n - b) = n by omega]
      exact Nat.le_trans h1 (Nat.le_trans (Nat.le_add_right _ _) h)
    exact Nat.le_of_mul_le_mul_right h2 (Nat.two_pow_pos _)

theorem single_bound {lens : List Nat} (h : Single lens) {n : Nat} (hn : 1 ≤ n) : bound lens n = 2 ^ (n - 1) := by
  induction n with
  | zero => omega
  | succ n ih =>
    rw [bound_succ]
    by_cases e : n = 0
    · subst e; rw [bound_zero, count, if_neg (by omega), h.1]
    · rw [ih (by omega), show n + 1 - 1 = (n - 1) + 1 by omega, Nat.pow_succ]
      have : count lens (n + 1) = 0 := by
        rw [count, if_neg (by omega), List.count_eq_zero]
        intro hm
        rcases h.2 _ hm with h | h <;> omega
      omega

theorem nocodes_bound {lens : List Nat} (h : NoCodes lens) (n : Nat) : bound lens n = 0 := by
  induction n with
  | zero => rfl
  | succ n ih =>
    rw [bound_succ, ih]
    have : count lens (n + 1) = 0 := by
      rw [count, if_neg (by omega), List.count_eq_zero]
      intro hm
      have := h _ hm
      omega
    omega

theorem build_spec {lens : List Nat} {n : Nat} {single requireEnd : Bool} (hl : lens.length ≤ 288) (h1 : 1 ≤ n) (h15 : n ≤ 15) :
    match build lens n single requireEnd with
    | .ok t => Valid n single requireEnd lens ∧ IsTree t lens
    | .err _ => ¬ Valid n single requireEnd lens
    | .fault => False := by
  rw [build, if_neg (by omega)]
  by_cases hend : (requireEnd && (decide (lens.length ≤ 256) || (lens.getD 256 0 == 0))) = true
  · rw [if_pos hend]
    intro hv
    simp only [Bool.and_eq_true, Bool.or_eq_true, decide_eq_true_eq, beq_iff_eq] at hend
    obtain ⟨l, h, h0⟩ := hv.1 hend.1
    have := (List.getElem?_eq_some_iff.1 h).1
    rw [List.getD, h, Option.getD_some] at hend
    omega
  · rw [if_neg hend]
    have hend' : requireEnd = true → ∃ l, lens[256]? = some l ∧ l ≠ 0 := by
      intro hr
      subst hr
      simp only [Bool.true_and, Bool.or_eq_true, decide_eq_true_eq, beq_iff_eq] at hend
      have : 256 < lens.length := by omega
      refine ⟨lens[256], List.getElem?_eq_getElem this, ?_⟩
      rw [List.getD, List.getElem?_eq_getElem this, Option.getD_some] at hend
      omega
    have hcl := countLengths_spec h15 lens (fun _ => 0) 0
    revert hcl
    generalize countLengths n lens (fun _ => 0, 0) = y
    intro hcl
    cases y with
    | fault => exact hcl
    | err e =>
      obtain ⟨l, hm, hlt⟩ := hcl
      rintro ⟨_, h | ⟨_, h⟩ | h⟩
      · have := h.1 l hm; omega
      · rcases h.2 l hm with h | h <;> omega
      · have := h l hm; omega
    | ok p =>
      obtain ⟨a, b, c, _, e⟩ := hcl
      have b' : ∀ i, p.1 i = count lens i := fun i => by rw [b i]; omega
      show match (if p.2 = 0 then Res.ok (⟨p.1, fun _ => 0, lens.length, n⟩ : Tree) else _) with
        | .ok t => Valid n single requireEnd lens ∧ IsTree t lens
        | .err _ => ¬ Valid n single requireEnd lens
        | .fault => False
      by_cases h0 : p.2 = 0
      · rw [if_pos h0]
        have hn : NoCodes lens := fun l hm => by have := c l hm; omega
        refine ⟨⟨hend', .inr (.inr hn)⟩, b', rfl, hl, h15, a, fun i _ => by rw [nocodes_bound hn]; exact Nat.zero_le _, fun s l hs hne => ?_⟩
        exact absurd (hn l (List.mem_of_getElem? hs)) hne
      · rw [if_neg h0]
        have hmx : p.2 ∈ lens := e.resolve_left h0
        have hnn : ¬ NoCodes lens := fun h => h0 (h _ hmx)
        have hleft := codesLeft_spec b' n 0 1 (by omega) (by rw [bound_zero]; rfl)
        rw [Nat.zero_add, Nat.zero_add] at hleft
        revert hleft
        generalize codesLeft p.1 n 1 1 = z
        intro hleft
        have hsum : share n lens = (lens.map (weight n)).sum := share_weight a
        cases z with
        | fault => exact hleft
        | err e' =>
          obtain ⟨i, hi, hlt⟩ := hleft
          rintro ⟨_, h | ⟨_, h⟩ | h⟩
          · have h2 : bound lens n ≤ 2 ^ n := by rw [bound_share, hsum, h.2]; omega
            have := bound_mono hi h2
            omega
          · have h2 : bound lens n ≤ 2 ^ n := by
              rw [single_bound h h1]
              exact Nat.pow_le_pow_right (by omega) (by omega)
            have := bound_mono hi h2
            omega
          · exact hnn h
        | ok left =>
          obtain ⟨hle, hbd⟩ := hleft
          have hp : ((2 : Nat) ^ n : Nat) = (2 : Int) ^ n := by push_cast; rfl
          show match (if left > 0 ∧ ¬ (single = true ∧ p.2 = 1 ∧ p.1 1 = 1) then Res.err Err.incomplete else _) with
            | .ok t => Valid n single requireEnd lens ∧ IsTree t lens
            | .err _ => ¬ Valid n single requireEnd lens
            | .fault => False
          by_cases hinc : left > 0 ∧ ¬ (single = true ∧ p.2 = 1 ∧ p.1 1 = 1)
          · rw [if_pos hinc]
            rintro ⟨_, h | ⟨hs, h⟩ | h⟩
            · have h2 : bound lens n = 2 ^ n := by rw [bound_share, hsum, h.2]
              omega
            · refine hinc.2 ⟨hs, ?_, ?_⟩
              · rcases h.2 _ hmx with h | h <;> omega
              · rw [b', count, if_neg (by omega), h.1]
            · exact hnn h
          · rw [if_neg hinc]
            obtain ⟨o', ho1, ho2⟩ := startOffsets_spec b' (n - 1) 1 (fun _ => 0) (by omega) (by
              intro i hi hi'
              rw [show i = 1 by omega]; rfl) (Nat.le_refl _)
            obtain ⟨sy, hs1, hs2⟩ := sortSymbols_spec hl (fun l hm => Nat.le_trans (a l hm) h15) lens [] o' (fun _ => 0) rfl (by
              intro l hne hm
              rw [ho2 l (by omega) (by have := a l hm; omega)]; rfl) (by intro s l h; simp at h)
            rw [ho1]
            show match (sortSymbols lens 0 o' (fun _ => 0)).bind _ with
              | .ok t => Valid n single requireEnd lens ∧ IsTree t lens
              | .err _ => ¬ Valid n single requireEnd lens
              | .fault => False
            rw [List.length_nil] at hs1
            rw [hs1]
            refine ⟨⟨hend', ?_⟩, b', rfl, hl, h15, a, fun i hi => ?_, hs2⟩
            · by_cases hz : left > 0
              · have hh : single = true ∧ p.2 = 1 ∧ p.1 1 = 1 := Decidable.byContradiction fun h => hinc ⟨hz, h⟩
                refine .inr (.inl ⟨hh.1, ?_, fun l hm => ?_⟩)
                · have := hh.2.2
                  rw [b', count, if_neg (by omega)] at this
                  exact this
                · have := c l hm
                  rw [hh.2.1] at this
                  omega
              · refine .inl ⟨a, ?_⟩
                rw [← hsum, ← bound_share]
                have := hbd n (by omega) (Nat.le_refl _)
                omega
            · by_cases hi0 : i = 0
              · subst hi0; rw [bound_zero]; exact Nat.zero_le _
              · exact hbd i (by omega) hi

/-! ### Decoding -/

theorem codeBits_length (l : Nat) : ∀ c, (codeBits l c).length = l := by
  induction l with
  | zero => intro c; rfl
  | succ l ih => intro c; rw [codeBits, List.length_append, ih]; rfl

theorem codeBits_head (k : Nat) : ∀ c, codeBits (k + 1) c = (c / 2 ^ k % 2 == 1) :: codeBits k c := by
  induction k with
  | zero => intro c; simp [codeBits]
  | succ k ih =>
    intro c
    rw [codeBits, ih (c / 2), codeBits, List.cons_append, Nat.div_div_eq_div_mul, Nat.pow_succ, Nat.mul_comm 2]

/-- The code of a symbol of more than `j` bits begins with `v`, and what follows of it are the next bits. -/
def Rest (lens : List Nat) (j v : Nat) (b : List Bool) (s : Nat) (b' : List Bool) : Prop :=
  ∃ l, lens[s]? = some l ∧ j < l ∧ code lens s l / 2 ^ (l - j) = v ∧ b = codeBits (l - j) (code lens s l) ++ b'

/-- The same with codes of `j` bits. -/
def Rest' (lens : List Nat) (j v : Nat) (b : List Bool) (s : Nat) (b' : List Bool) : Prop :=
  ∃ l, lens[s]? = some l ∧ j ≤ l ∧ code lens s l / 2 ^ (l - j) = v ∧ b = codeBits (l - j) (code lens s l) ++ b'

theorem rest_step (lens : List Nat) (j v : Nat) (b : List Bool) (s : Nat) (b' : List Bool) :
    Rest lens j v b s b' ↔ ∃ bit b1, Bits 1 b bit b1 ∧ Rest' lens (j + 1) (2 * v + bit) b1 s b' := by
  constructor
  · rintro ⟨l, h1, h2, h3, h4⟩
    have hk : l - j = (l - (j + 1)) + 1 := by omega
    rw [hk, codeBits_head] at h4
    rw [hk] at h3
    refine ⟨code lens s l / 2 ^ (l - (j + 1)) % 2, codeBits (l - (j + 1)) (code lens s l) ++ b', ⟨[code lens s l / 2 ^ (l - (j + 1)) % 2 == 1], rfl,
      h4, ?_⟩, l, h1, by omega, ?_, rfl⟩
    · rcases Nat.mod_two_eq_zero_or_one (code lens s l / 2 ^ (l - (j + 1))) with h | h <;> simp [number, h]
    · rw [Nat.pow_succ, ← Nat.div_div_eq_div_mul] at h3
      omega
  · rintro ⟨bit, b1, ⟨bs, hb1, hb2, hb3⟩, l, h1, h2, h3, h4⟩
    have hk : l - j = (l - (j + 1)) + 1 := by omega
    refine ⟨l, h1, by omega, ?_, ?_⟩
    · rw [hk, Nat.pow_succ, ← Nat.div_div_eq_div_mul, h3]
      have := number_lt bs
      rw [hb1] at this
      omega
    · rw [hk, codeBits_head, hb2, h4]
      match bs, hb1 with
      | [x], _ =>
        simp only [number] at hb3
        rw [List.cons_append, List.cons_append, List.nil_append, h3]
        congr 1
        cases x <;> simp at hb3 <;> subst hb3 <;> simp

theorem code_lt {lens : List Nat} {s l : Nat} (h : lens[s]? = some l) (h0 : l ≠ 0) : code lens s l < bound lens l := by
  rw [code, bound, count, if_neg h0]
  have := rank_lt h
  omega

/-- Codes of more bits begin behind the codes of `j` bits. -/
theorem code_longer {lens : List Nat} {s l j : Nat} (hj : j < l) : bound lens j ≤ code lens s l / 2 ^ (l - j) := by
  rw [Nat.le_div_iff_mul_le (Nat.two_pow_pos _)]
  exact Nat.le_trans (bound_le' lens hj) (Nat.le_add_right _ _)

theorem or_bit {v bit : Nat} (h : bit < 2) : 2 * v ||| bit = 2 * v + bit := by
  have := Nat.shiftLeft_add_eq_or_of_lt (i := 1) (b := bit) (by omega) v
  rw [Nat.shiftLeft_eq, Nat.pow_one, Nat.mul_comm] at this
  exact this.symm

theorem decodeLoop_exact {t : Tree} {lens : List Nat} (ht : IsTree t lens) : ∀ (n j v : Nat) (r : Reader), Inv r → j + n = t.maxBits →
    bound lens j ≤ v → Exact (decodeLoop t n (j + 1) (2 * v) (firstCode lens (j + 1)) (base lens (j + 1)) r) (Rest lens j v (view r)) := by
  intro n
  induction n with
  | zero =>
    intro j v r _ hj _
    rw [decodeLoop]
    rintro s b' ⟨l, h1, h2, _⟩
    have := ht.short l (List.mem_of_getElem? h1)
    omega
  | succ n ih =>
    intro j v r hi hj hv
    rw [decodeLoop]
    refine Exact.bind (readBits_exact hi (by omega)) (R := fun bit b1 => Rest' lens (j + 1) (2 * v + bit) b1) ?_ (fun s b' => rest_step lens j v _ s b')
    intro bit r' _ hi' hb
    have hbit : bit < 2 := by
      obtain ⟨bs, h1, _, h3⟩ := hb
      have := number_lt bs
      rw [h1] at this
      omega
    simp only
    rw [or_bit hbit, if_pos (by have := ht.bits; omega), ht.counts]
    have hfirst : firstCode lens (j + 1) ≤ 2 * v + bit := by rw [firstCode_succ]; omega
    by_cases hlt : 2 * v + bit < firstCode lens (j + 1) + count lens (j + 1)
    · rw [if_pos hlt, if_neg (by omega)]
      have hcnt : count lens (j + 1) = lens.count (j + 1) := by rw [count, if_neg (by omega)]
      have hbase := base_count lens (j + 1)
      have hsm := ht.small
      obtain ⟨s, hs1, hs2⟩ := exists_rank lens (j + 1) (2 * v + bit - firstCode lens (j + 1)) (by omega)
      have hsym := ht.symbols s (j + 1) hs1 (by omega)
      rw [hs2] at hsym
      have hidx : base lens (j + 1) + (2 * v + bit) - firstCode lens (j + 1) = base lens (j + 1) + (2 * v + bit - firstCode lens (j + 1)) := by omega
      rw [hidx, ht.symbolCount, if_neg (by omega), if_pos (by omega), hsym]
      refine ⟨hi', fun s' b' => ⟨?_, ?_⟩⟩
      · rintro ⟨l, h1, h2, h3, h4⟩
        have hl : l = j + 1 := by
          apply Nat.le_antisymm _ h2
          apply Nat.le_of_not_lt
          intro hgt
          have := code_longer (lens := lens) (s := s') hgt
          rw [h3] at this
          have : firstCode lens (j + 1) + count lens (j + 1) ≤ 2 * v + bit := this
          omega
        subst hl
        rw [Nat.sub_self, Nat.pow_zero, Nat.div_one] at h3
        rw [Nat.sub_self] at h4
        have hrank : (lens.take s').count (j + 1) = 2 * v + bit - firstCode lens (j + 1) := by rw [code] at h3; omega
        have := ht.symbols s' (j + 1) h1 (by omega)
        rw [hrank, hsym] at this
        exact ⟨this.symm, h4.symm⟩
      · rintro ⟨rfl, rfl⟩
        refine ⟨j + 1, hs1, Nat.le_refl _, ?_, ?_⟩
        · rw [Nat.sub_self, Nat.pow_zero, Nat.div_one, code, hs2]; omega
        · rw [Nat.sub_self]; rfl
    · rw [if_neg hlt]
      have e1 : (2 * v + bit) <<< 1 = 2 * (2 * v + bit) := by rw [Nat.shiftLeft_eq, Nat.pow_one, Nat.mul_comm]
      have e2 : (firstCode lens (j + 1) + count lens (j + 1)) <<< 1 = firstCode lens (j + 1 + 1) := by
        rw [Nat.shiftLeft_eq, Nat.pow_one]; rfl
      rw [e1, e2]
      refine (ih (j + 1) (2 * v + bit) r' hi' (by omega) (Nat.le_of_not_lt hlt)).congr fun s b' => ⟨?_, ?_⟩
      · rintro ⟨l, h1, h2, h3, h4⟩
        refine ⟨l, h1, ?_, h3, h4⟩
        apply Nat.lt_of_le_of_ne h2
        intro he
        subst he
        rw [Nat.sub_self, Nat.pow_zero, Nat.div_one] at h3
        have := code_lt h1 (by omega)
        rw [h3, bound] at this
        omega
      · rintro ⟨l, h1, h2, h3, h4⟩
        exact ⟨l, h1, by omega, h3, h4⟩

theorem decodeSymbol_exact {t : Tree} {lens : List Nat} (ht : IsTree t lens) {r : Reader} (hi : Inv r) :
    Exact (decodeSymbol r t) (Symbol lens (view r)) := by
  have := decodeLoop_exact ht t.maxBits 0 0 r hi (by omega) (Nat.zero_le _)
  rw [decodeSymbol]
  refine Exact.congr this fun s b' => ⟨?_, ?_⟩
  · rintro ⟨l, h1, h2, h3⟩
    refine ⟨l, h1, by omega, ?_, h3⟩
    rw [Nat.sub_zero]
    have := code_lt h1 h2
    have h4 := ht.fits l (ht.short l (List.mem_of_getElem? h1))
    exact Nat.div_eq_of_lt (by omega)
  · rintro ⟨l, h1, h2, _, h4⟩
    exact ⟨l, h1, by omega, h4⟩

/-- A symbol takes at least one bit. -/
theorem symbol_shorter {lens : List Nat} {b b' : List Bool} {s : Nat} (h : Symbol lens b s b') : b'.length < b.length := by
  obtain ⟨l, _, h2, rfl⟩ := h
  rw [List.length_append, codeBits_length]; omega

end Nature.Inflate
