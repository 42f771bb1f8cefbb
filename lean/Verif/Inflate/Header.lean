import Verif.Inflate.Huffman

/-!
# The trees of a block
-/

namespace Nature.Inflate

open Spec (bitsOf number Bits nextByte Symbol Complete Single NoCodes LengthCodes LiteralCodes DistanceCodes Numbers Runs Header)

theorem bits_shorter {n : Nat} {b b' : List Bool} {v : Nat} (h : Bits n b v b') : b'.length ≤ b.length := by
  obtain ⟨bs, _, rfl, _⟩ := h
  rw [List.length_append]; omega

/-! ### Lengths of codes for lengths -/

/-- What `readCodeLengths` stores. -/
def setAll : Nat → List Nat → List Nat → List Nat
  | _, lens, [] => lens
  | i, lens, v :: vs => setAll (i + 1) (lens.set (order.getD i 0) v) vs

theorem readCodeLengths_exact : ∀ (n i : Nat) (lens : List Nat) (r : Reader), Inv r → i + n ≤ 19 →
    Exact (readCodeLengths n i lens r) fun lens' b' => ∃ vs, Numbers 3 n (view r) vs b' ∧ lens' = setAll i lens vs := by
  intro n
  induction n with
  | zero =>
    intro i lens r hi _
    refine (exact_ok hi).congr fun a b => ⟨?_, ?_⟩
    · rintro ⟨vs, h, rfl⟩
      cases h
      exact ⟨rfl, rfl⟩
    · rintro ⟨rfl, rfl⟩
      exact ⟨[], .nil, rfl⟩
  | succ n ih =>
    intro i lens r hi hle
    rw [readCodeLengths]
    refine Exact.bind (readBits_exact hi (by omega))
      (R := fun v b1 lens' b' => ∃ vs, Numbers 3 n b1 vs b' ∧ lens' = setAll (i + 1) (lens.set (order.getD i 0) v) vs) ?_ ?_
    · intro v r' _ hi' _
      have hl : order.length = 19 := rfl
      have hg : order[i]? = some order[i] := List.getElem?_eq_getElem (by omega)
      have hj : order[i] < 19 := by
        have : ∀ x, x ∈ order → x < 19 := by decide
        exact this _ (List.getElem_mem _)
      simp only [hg, if_pos hj]
      have : order.getD i 0 = order[i] := by rw [List.getD, hg]; rfl
      rw [this]
      exact ih (i + 1) _ r' hi' (by omega)
    · intro c b
      constructor
      · rintro ⟨vs, h, rfl⟩
        cases h with
        | cons h1 h2 => exact ⟨_, _, h1, _, h2, rfl⟩
      · rintro ⟨v, b1, h1, vs, h2, rfl⟩
        exact ⟨v :: vs, .cons h1 h2, rfl⟩

theorem numbers_length {k n : Nat} {b b' : List Bool} {vs : List Nat} (h : Numbers k n b vs b') : vs.length = n := by
  induction h with
  | nil => rfl
  | cons _ _ ih => rw [List.length_cons, ih]

theorem numbers_shorter {k n : Nat} {b b' : List Bool} {vs : List Nat} (h : Numbers k n b vs b') : b'.length ≤ b.length := by
  induction h with
  | nil => exact Nat.le_refl _
  | cons h _ ih => exact Nat.le_trans ih (bits_shorter h)

theorem setAll_length : ∀ (vs : List Nat) (i : Nat) (lens : List Nat), (setAll i lens vs).length = lens.length := by
  intro vs
  induction vs with
  | nil => intro i lens; rfl
  | cons v vs ih => intro i lens; rw [setAll, ih, List.length_set]

theorem order_inj {i k : Nat} (hi : i < 19) (hk : k < 19) (h : order.getD i 0 = order.getD k 0) : i = k := by
  have : ∀ i, i < 19 → ∀ k, k < 19 → order.getD i 0 = order.getD k 0 → i = k := by decide +kernel
  exact this i hi k hk h

theorem setAll_get : ∀ (vs : List Nat) (i : Nat) (lens : List Nat), lens.length = 19 → i + vs.length ≤ 19 → ∀ k, k < 19 →
    (setAll i lens vs)[order.getD k 0]? = if i ≤ k ∧ k < i + vs.length then some (vs.getD (k - i) 0) else lens[order.getD k 0]? := by
  intro vs
  induction vs with
  | nil => intro i lens _ _ k _; rw [if_neg (by rw [List.length_nil]; omega)]; rfl
  | cons v vs ih =>
    intro i lens hl hi k hk
    rw [List.length_cons] at hi
    rw [setAll, ih (i + 1) _ (by rw [List.length_set]; exact hl) (by omega) k hk, List.length_cons]
    have ho : order.getD k 0 < 19 := by
      have : ∀ k, k < 19 → order.getD k 0 < 19 := by decide +kernel
      exact this k hk
    by_cases h1 : i + 1 ≤ k ∧ k < i + 1 + vs.length
    · rw [if_pos h1, if_pos (by omega), show k - i = (k - (i + 1)) + 1 by omega]; rfl
    · rw [if_neg h1]
      by_cases h2 : k = i
      · subst h2
        rw [if_pos (by omega), List.getElem?_set_self (by omega), Nat.sub_self]; rfl
      · rw [if_neg (by omega), List.getElem?_set_ne]
        intro h
        exact h2 (order_inj (by omega) hk h).symm

theorem setAll_spec {vs : List Nat} (hv : vs.length ≤ 19) (c : List Nat) :
    c = setAll 0 (List.replicate 19 0) vs ↔ c.length = 19 ∧ ∀ (i j : Nat), Spec.order[i]? = some j → c[j]? = some (vs.getD i 0) := by
  have key : ∀ k, k < 19 → (setAll 0 (List.replicate 19 0) vs)[order.getD k 0]? = some (vs.getD k 0) := by
    intro k hk
    rw [setAll_get vs 0 _ (by simp) (by omega) k hk]
    by_cases h : 0 ≤ k ∧ k < 0 + vs.length
    · rw [if_pos h]; rfl
    · rw [if_neg h]
      have ho : order.getD k 0 < 19 := by
        have : ∀ k, k < 19 → order.getD k 0 < 19 := by decide +kernel
        exact this k hk
      rw [List.getElem?_replicate, if_pos ho, List.getD, List.getElem?_eq_none (by omega)]; rfl
  have hord : ∀ (i j : Nat), Spec.order[i]? = some j → i < 19 ∧ j = order.getD i 0 := by
    intro i j h
    obtain ⟨h1, h2⟩ := List.getElem?_eq_some_iff.1 h
    refine ⟨h1, ?_⟩
    rw [List.getD, show order = Spec.order from rfl, h]; rfl
  constructor
  · rintro rfl
    refine ⟨by rw [setAll_length]; simp, fun i j h => ?_⟩
    obtain ⟨h1, rfl⟩ := hord i j h
    exact key i h1
  · rintro ⟨hl, hc⟩
    apply List.ext_getElem?
    intro j
    by_cases hj : j < 19
    · have : ∀ j, j < 19 → ∃ i, i < 19 ∧ order.getD i 0 = j ∧ Spec.order[i]? = some j := by
        have : ∀ j, j < 19 → ∃ i, i < 19 ∧ order.getD i 0 = j ∧ Spec.order[i]? = some j := by decide +kernel
        exact this
      obtain ⟨i, hi, he, hs⟩ := this j hj
      rw [hc i j hs, ← he, key i hi]
    · rw [List.getElem?_eq_none (by omega), List.getElem?_eq_none (by rw [setAll_length]; simp; omega)]

/-! ### Lengths of codes -/

/-- What follows the symbol `s`. -/
def RunsFrom (c : List Nat) (total : Nat) (ls : List Nat) (s : Nat) (b1 : List Bool) (ls' : List Nat) (b' : List Bool) : Prop :=
  (s ≤ 15 ∧ Runs c total (ls ++ [s]) b1 ls' b') ∨
  (s = 16 ∧ ∃ l n b2, ls.getLast? = some l ∧ Bits 2 b1 n b2 ∧ ls.length + (n + 3) ≤ total ∧ Runs c total (ls ++ List.replicate (n + 3) l) b2 ls' b') ∨
  (s = 17 ∧ ∃ n b2, Bits 3 b1 n b2 ∧ ls.length + (n + 3) ≤ total ∧ Runs c total (ls ++ List.replicate (n + 3) 0) b2 ls' b') ∨
  (s = 18 ∧ ∃ n b2, Bits 7 b1 n b2 ∧ ls.length + (n + 11) ≤ total ∧ Runs c total (ls ++ List.replicate (n + 11) 0) b2 ls' b')

theorem runs_iff {c : List Nat} {total : Nat} {ls : List Nat} (h : ls.length < total) {b : List Bool} {ls' : List Nat} {b' : List Bool} :
    Runs c total ls b ls' b' ↔ ∃ s b1, Symbol c b s b1 ∧ RunsFrom c total ls s b1 ls' b' := by
  constructor
  · intro hr
    cases hr with
    | done h1 => omega
    | length _ h2 h3 h4 => exact ⟨_, _, h2, .inl ⟨h3, h4⟩⟩
    | repeated _ h2 h3 h4 h5 h6 => exact ⟨_, _, h2, .inr (.inl ⟨rfl, _, _, _, h3, h4, h5, h6⟩)⟩
    | zeros _ h2 h3 h4 h5 => exact ⟨_, _, h2, .inr (.inr (.inl ⟨rfl, _, _, h3, h4, h5⟩))⟩
    | manyZeros _ h2 h3 h4 h5 => exact ⟨_, _, h2, .inr (.inr (.inr ⟨rfl, _, _, h3, h4, h5⟩))⟩
  · rintro ⟨s, b1, h2, ⟨h3, h4⟩ | ⟨rfl, l, n, b2, h3, h4, h5, h6⟩ | ⟨rfl, n, b2, h3, h4, h5⟩ | ⟨rfl, n, b2, h3, h4, h5⟩⟩
    · exact .length h h2 h3 h4
    · exact .repeated h h2 h3 h4 h5 h6
    · exact .zeros h h2 h3 h4 h5
    · exact .manyZeros h h2 h3 h4 h5

/-- A length written several times. -/
theorem repeat_exact {t : Tree} {c : List Nat} {total fuel : Nat} {lens : List Nat} {n l : Nat} {r : Reader} (ht : total ≤ 316) (hn : 1 ≤ n)
    (hl : lens.length < total) (hfuel : total - lens.length ≤ fuel + 1)
    (ih : ∀ (lens : List Nat), lens.length ≤ total → total - lens.length ≤ fuel →
      Exact (readLengths t total fuel lens r) fun ls b' => Runs c total lens (view r) ls b') :
    Exact ((repeatLength total lens n l).bind fun lens => readLengths t total fuel lens r) fun ls b' =>
      lens.length + n ≤ total ∧ Runs c total (lens ++ List.replicate n l) (view r) ls b' := by
  rw [repeatLength]
  by_cases h : n > total - lens.length
  · rw [if_pos h]
    rintro a b ⟨h', _⟩
    omega
  · rw [if_neg h, if_pos (by omega)]
    refine (ih (lens ++ List.replicate n l) (by simp; omega) (by simp; omega)).congr fun a b => ⟨fun h => h.2, fun h' => ⟨by omega, h'⟩⟩

theorem readLengths_exact {t : Tree} {c : List Nat} (ht : IsTree t c) {total : Nat} (hm : total ≤ 316) : ∀ (fuel : Nat) (lens : List Nat) (r : Reader),
    Inv r → lens.length ≤ total → total - lens.length ≤ fuel →
    Exact (readLengths t total fuel lens r) fun ls b' => Runs c total lens (view r) ls b' := by
  intro fuel
  induction fuel with
  | zero =>
    intro lens r hi h1 h2
    rw [readLengths, if_neg (by omega)]
    refine (exact_ok hi).congr fun a b => ⟨?_, ?_⟩
    · intro h
      cases h with
      | done => exact ⟨rfl, rfl⟩
      | length h | repeated h | zeros h | manyZeros h => omega
    · rintro ⟨rfl, rfl⟩; exact .done (by omega)
  | succ fuel ih =>
    intro lens r hi h1 h2
    rw [readLengths]
    by_cases hlt : lens.length < total
    · rw [if_pos hlt]
      refine Exact.bind (decodeSymbol_exact ht hi) (R := RunsFrom c total lens) ?_ (fun ls b => runs_iff hlt)
      intro s r' _ hi' _
      simp only
      by_cases hs : s ≤ 15
      · rw [if_pos hs, if_pos (by omega)]
        refine (ih (lens ++ [s]) r' hi' (by simp; omega) (by simp; omega)).congr fun a b => ⟨?_, fun h => .inl ⟨hs, h⟩⟩
        rintro (⟨_, h⟩ | ⟨rfl, _⟩ | ⟨rfl, _⟩ | ⟨rfl, _⟩)
        · exact h
        all_goals omega
      · rw [if_neg hs]
        by_cases h16 : s = 16
        · rw [if_pos h16]
          by_cases h0 : lens.length = 0
          · rw [if_pos h0]
            rintro a b (⟨h, _⟩ | ⟨_, l, n, b2, h, _⟩ | ⟨h, _⟩ | ⟨h, _⟩)
            · omega
            · rw [List.length_eq_zero_iff.1 h0] at h; simp at h
            · omega
            · omega
          · rw [if_neg h0]
            have hg : lens[lens.length - 1]? = some lens[lens.length - 1] := List.getElem?_eq_getElem (by omega)
            refine Exact.bind (readBits_exact hi' (by omega)) (R := fun n b2 ls' b' => lens.length + (n + 3) ≤ total ∧
              Runs c total (lens ++ List.replicate (n + 3) lens[lens.length - 1]) b2 ls' b') ?_ ?_
            · intro n r2 _ hi2 _
              simp only [hg]
              exact repeat_exact hm (by omega) hlt h2 fun lens' h h' => ih lens' r2 hi2 h h'
            · intro ls b
              constructor
              · rintro (⟨h, _⟩ | ⟨_, l, n, b2, h3, h4, h5, h6⟩ | ⟨h, _⟩ | ⟨h, _⟩)
                · omega
                · rw [List.getLast?_eq_getElem?, hg] at h3
                  cases h3
                  exact ⟨n, b2, h4, h5, h6⟩
                · omega
                · omega
              · rintro ⟨n, b2, h4, h5, h6⟩
                exact .inr (.inl ⟨h16, _, n, b2, by rw [List.getLast?_eq_getElem?, hg], h4, h5, h6⟩)
        · rw [if_neg h16]
          by_cases h17 : s = 17
          · rw [if_pos h17]
            refine Exact.bind (readBits_exact hi' (by omega)) (R := fun n b2 ls' b' => lens.length + (n + 3) ≤ total ∧
              Runs c total (lens ++ List.replicate (n + 3) 0) b2 ls' b') ?_ ?_
            · intro n r2 _ hi2 _
              exact repeat_exact hm (by omega) hlt h2 fun lens' h h' => ih lens' r2 hi2 h h'
            · intro ls b
              constructor
              · rintro (⟨h, _⟩ | ⟨h, _⟩ | ⟨_, n, b2, h4, h5, h6⟩ | ⟨h, _⟩)
                · omega
                · omega
                · exact ⟨n, b2, h4, h5, h6⟩
                · omega
              · rintro ⟨n, b2, h4, h5, h6⟩
                exact .inr (.inr (.inl ⟨h17, n, b2, h4, h5, h6⟩))
          · rw [if_neg h17]
            by_cases h18 : s = 18
            · rw [if_pos h18]
              refine Exact.bind (readBits_exact hi' (by omega)) (R := fun n b2 ls' b' => lens.length + (n + 11) ≤ total ∧
                Runs c total (lens ++ List.replicate (n + 11) 0) b2 ls' b') ?_ ?_
              · intro n r2 _ hi2 _
                exact repeat_exact hm (by omega) hlt h2 fun lens' h h' => ih lens' r2 hi2 h h'
              · intro ls b
                constructor
                · rintro (⟨h, _⟩ | ⟨h, _⟩ | ⟨h, _⟩ | ⟨_, n, b2, h4, h5, h6⟩)
                  · omega
                  · omega
                  · omega
                  · exact ⟨n, b2, h4, h5, h6⟩
                · rintro ⟨n, b2, h4, h5, h6⟩
                  exact .inr (.inr (.inr ⟨h18, n, b2, h4, h5, h6⟩))
            · rw [if_neg h18]
              rintro a b (⟨h, _⟩ | ⟨h, _⟩ | ⟨h, _⟩ | ⟨h, _⟩) <;> omega
    · rw [if_neg hlt]
      refine (exact_ok hi).congr fun a b => ⟨?_, ?_⟩
      · intro h
        cases h with
        | done => exact ⟨rfl, rfl⟩
        | length h | repeated h | zeros h | manyZeros h => omega
      · rintro ⟨rfl, rfl⟩; exact .done (by omega)

theorem runs_length {c : List Nat} {total : Nat} {ls ls' : List Nat} {b b' : List Bool} (h : Runs c total ls b ls' b') : ls'.length = total := by
  induction h with
  | done h => exact h
  | length _ _ _ _ ih | repeated _ _ _ _ _ _ ih | zeros _ _ _ _ _ ih | manyZeros _ _ _ _ _ ih => exact ih

theorem runs_shorter {c : List Nat} {total : Nat} {ls ls' : List Nat} {b b' : List Bool} (h : Runs c total ls b ls' b') : b'.length ≤ b.length := by
  induction h with
  | done h => exact Nat.le_refl _
  | length _ h _ _ ih => have := symbol_shorter h; omega
  | repeated _ h _ h' _ _ ih => have := symbol_shorter h; have := bits_shorter h'; omega
  | zeros _ h h' _ _ ih => have := symbol_shorter h; have := bits_shorter h'; omega
  | manyZeros _ h h' _ _ ih => have := symbol_shorter h; have := bits_shorter h'; omega

/-! ### The header -/

/-- The header, its lengths for literals and distances as one list, without the conditions on them. -/
def Lengths (b : List Bool) (p : Nat × List Nat) (b' : List Bool) : Prop :=
  ∃ hlit b1 hdist b2 hclen b3 vs b4 c, Bits 5 b hlit b1 ∧ Bits 5 b1 hdist b2 ∧ Bits 4 b2 hclen b3 ∧ hlit + 257 ≤ 286 ∧ hdist + 1 ≤ 30 ∧
    Numbers 3 (hclen + 4) b3 vs b4 ∧ c = setAll 0 (List.replicate 19 0) vs ∧ LengthCodes c ∧
    Runs c (hlit + 257 + (hdist + 1)) [] b4 p.2 b' ∧ p.1 = hlit + 257

/-- The first part of `dynamicTrees`. -/
def readHeader (r : Reader) : Res ((Nat × List Nat) × Reader) :=
  (readBits r 5).bind fun a => (readBits a.2 5).bind fun b => (readBits b.2 4).bind fun c =>
    if a.1 + 257 > 286 ∨ b.1 + 1 > 30 then .err .invalidDynamicHeader
    else (readCodeLengths (c.1 + 4) 0 (List.replicate 19 0) c.2).bind fun d =>
      (build d.1 7 false false).bind fun t =>
        (readLengths t (a.1 + 257 + (b.1 + 1)) (a.1 + 257 + (b.1 + 1)) [] d.2).bind fun e => .ok ((a.1 + 257, e.1), e.2)

theorem bind_assoc {α β γ : Type} (x : Res α) (f : α → Res β) (g : β → Res γ) : (x.bind f).bind g = x.bind fun a => (f a).bind g := by
  cases x <;> rfl

theorem dynamicTrees_eq (r : Reader) : dynamicTrees r = (readHeader r).bind fun e =>
    (build (e.1.2.take e.1.1) 15 true true).bind fun lt => (build (e.1.2.drop e.1.1) 15 true false).bind fun dt => .ok ((lt, dt), e.2) := by
  rw [dynamicTrees, readHeader]
  rw [bind_assoc]
  congr 1; funext a
  rw [bind_assoc]
  congr 1; funext b
  rw [bind_assoc]
  congr 1; funext c
  by_cases h : a.1 + 257 > 286 ∨ b.1 + 1 > 30
  · rw [if_pos h, if_pos h]; rfl
  · rw [if_neg h, if_neg h, bind_assoc]
    congr 1; funext d
    rw [bind_assoc]
    congr 1; funext t
    rw [bind_assoc]
    rfl

theorem bits_lt {n : Nat} {b b' : List Bool} {v : Nat} (h : Bits n b v b') : v < 2 ^ n := by
  obtain ⟨bs, rfl, _, rfl⟩ := h
  exact number_lt bs

theorem readHeader_exact {r : Reader} (hi : Inv r) : Exact (readHeader r) (Lengths (view r)) := by
  rw [readHeader]
  refine Exact.bind (readBits_exact hi (by omega)) (R := fun hlit b1 p b' => ∃ hdist b2 hclen b3 vs b4 c, Bits 5 b1 hdist b2 ∧ Bits 4 b2 hclen b3 ∧
    hlit + 257 ≤ 286 ∧ hdist + 1 ≤ 30 ∧ Numbers 3 (hclen + 4) b3 vs b4 ∧ c = setAll 0 (List.replicate 19 0) vs ∧ LengthCodes c ∧
    Runs c (hlit + 257 + (hdist + 1)) [] b4 p.2 b' ∧ p.1 = hlit + 257) ?_ ?_
  · intro hlit r1 _ hi1 _
    refine Exact.bind (readBits_exact hi1 (by omega)) (R := fun hdist b2 p b' => ∃ hclen b3 vs b4 c, Bits 4 b2 hclen b3 ∧
      hlit + 257 ≤ 286 ∧ hdist + 1 ≤ 30 ∧ Numbers 3 (hclen + 4) b3 vs b4 ∧ c = setAll 0 (List.replicate 19 0) vs ∧ LengthCodes c ∧
      Runs c (hlit + 257 + (hdist + 1)) [] b4 p.2 b' ∧ p.1 = hlit + 257) ?_ ?_
    · intro hdist r2 _ hi2 _
      refine Exact.bind (readBits_exact hi2 (by omega)) (R := fun hclen b3 p b' => ∃ vs b4 c,
        hlit + 257 ≤ 286 ∧ hdist + 1 ≤ 30 ∧ Numbers 3 (hclen + 4) b3 vs b4 ∧ c = setAll 0 (List.replicate 19 0) vs ∧ LengthCodes c ∧
        Runs c (hlit + 257 + (hdist + 1)) [] b4 p.2 b' ∧ p.1 = hlit + 257) ?_ ?_
      · intro hclen r3 _ hi3 hb3
        have hlt := bits_lt hb3
        simp only
        by_cases hbad : hlit + 257 > 286 ∨ hdist + 1 > 30
        · rw [if_pos hbad]
          rintro a b ⟨_, _, _, h1, h2, _⟩
          omega
        · rw [if_neg hbad]
          refine Exact.bind (readCodeLengths_exact (hclen + 4) 0 _ r3 hi3 (by omega)) (R := fun c b4 p b' => LengthCodes c ∧
            Runs c (hlit + 257 + (hdist + 1)) [] b4 p.2 b' ∧ p.1 = hlit + 257) ?_ ?_
          · rintro c r4 _ hi4 ⟨vs, hvs, hc⟩
            have hcl : c.length = 19 := by rw [hc, setAll_length]; simp
            have hb := build_spec (lens := c) (n := 7) (single := false) (requireEnd := false) (by omega) (by omega) (by omega)
            have hval : Valid 7 false false c ↔ LengthCodes c := by
              simp [Valid, LengthCodes]
            simp only
            revert hb
            generalize build c 7 false false = y
            intro hb
            cases y with
            | fault => exact hb
            | err e =>
              rintro a b ⟨h, _⟩
              exact hb (hval.2 h)
            | ok t =>
              obtain ⟨hv, ht⟩ := hb
              show Exact ((readLengths t _ _ [] r4).bind _) _
              refine Exact.bind (readLengths_exact ht (by omega) _ [] r4 hi4 (by simp) (by simp))
                (R := fun ls b5 p b' => p = (hlit + 257, ls) ∧ b' = b5) ?_ ?_
              · intro ls r5 _ hi5 _
                exact exact_ok hi5
              · intro p b
                constructor
                · rintro ⟨_, h1, h2⟩
                  exact ⟨_, _, h1, by rw [← h2], rfl⟩
                · rintro ⟨ls, b5, h1, rfl, rfl⟩
                  exact ⟨hval.1 hv, h1, rfl⟩
          · intro p b
            constructor
            · rintro ⟨vs, b4, c, _, _, h1, h2, h3, h4, h5⟩
              exact ⟨c, b4, ⟨vs, h1, h2⟩, h3, h4, h5⟩
            · rintro ⟨c, b4, ⟨vs, h1, h2⟩, h3, h4, h5⟩
              exact ⟨vs, b4, c, by omega, by omega, h1, h2, h3, h4, h5⟩
      · intro p b
        constructor
        · rintro ⟨hclen, b3, vs, b4, c, h, h'⟩; exact ⟨hclen, b3, h, vs, b4, c, h'⟩
        · rintro ⟨hclen, b3, h, vs, b4, c, h'⟩; exact ⟨hclen, b3, vs, b4, c, h, h'⟩
    · intro p b
      constructor
      · rintro ⟨hdist, b2, hclen, b3, vs, b4, c, h, h'⟩; exact ⟨hdist, b2, h, hclen, b3, vs, b4, c, h'⟩
      · rintro ⟨hdist, b2, h, hclen, b3, vs, b4, c, h'⟩; exact ⟨hdist, b2, hclen, b3, vs, b4, c, h, h'⟩
  · intro p b
    constructor
    · rintro ⟨hlit, b1, hdist, b2, hclen, b3, vs, b4, c, h, h'⟩; exact ⟨hlit, b1, h, hdist, b2, hclen, b3, vs, b4, c, h'⟩
    · rintro ⟨hlit, b1, h, hdist, b2, hclen, b3, vs, b4, c, h'⟩; exact ⟨hlit, b1, hdist, b2, hclen, b3, vs, b4, c, h, h'⟩

theorem header_iff {b b' : List Bool} {lit dist : List Nat} :
    Header b lit dist b' ↔ Lengths b (lit.length, lit ++ dist) b' ∧ LiteralCodes lit ∧ DistanceCodes dist := by
  constructor
  · rintro ⟨hlit, b1, hdist, b2, hclen, b3, vs, b4, c, h1, h2, h3, h4, h5, h6, h7, h8, h9, h10, h11, h12, h13, h14⟩
    have hl := numbers_length h6
    have hlt := bits_lt h3
    refine ⟨⟨hlit, b1, hdist, b2, hclen, b3, vs, b4, c, h1, h2, h3, h4, h5, h6, (setAll_spec (by omega) c).2 ⟨h7, h8⟩, h9, ?_, h11⟩, h13, h14⟩
    rw [h11, h12] at h10
    exact h10
  · rintro ⟨⟨hlit, b1, hdist, b2, hclen, b3, vs, b4, c, h1, h2, h3, h4, h5, h6, h7, h8, h9, h10⟩, h13, h14⟩
    have hl := numbers_length h6
    have hlt := bits_lt h3
    have hr := runs_length h9
    simp only [List.length_append] at hr h10
    obtain ⟨h7, h7'⟩ := (setAll_spec (by omega) c).1 h7
    refine ⟨hlit, b1, hdist, b2, hclen, b3, vs, b4, c, h1, h2, h3, h4, h5, h6, h7, h7', h8, ?_, h10, by omega, h13, h14⟩
    rw [h10, show dist.length = hdist + 1 by omega]
    exact h9

theorem header_shorter {b b' : List Bool} {lit dist : List Nat} (h : Header b lit dist b') : b'.length ≤ b.length := by
  obtain ⟨hlit, b1, hdist, b2, hclen, b3, vs, b4, c, h1, h2, h3, _, _, h6, _, _, _, h10, _⟩ := h
  have := bits_shorter h1
  have := bits_shorter h2
  have := bits_shorter h3
  have := numbers_shorter h6
  have := runs_shorter h10
  omega

theorem lengths_split {b b' : List Bool} {p : Nat × List Nat} (h : Lengths b p b') : p.1 ≤ 286 ∧ p.1 ≤ p.2.length ∧ p.2.length ≤ 316 := by
  obtain ⟨hlit, b1, hdist, b2, hclen, b3, vs, b4, c, _, _, _, h4, h5, _, _, _, h9, h10⟩ := h
  have := runs_length h9
  omega

/-- Trees are those of the header. -/
def TreesOf (b : List Bool) : Res ((Tree × Tree) × Reader) → Prop
  | .ok p => ∃ lit dist, IsTree p.1.1 lit ∧ IsTree p.1.2 dist ∧ Inv p.2 ∧
      ∀ lit' dist' b', Header b lit' dist' b' ↔ lit' = lit ∧ dist' = dist ∧ b' = view p.2
  | .err _ => ∀ lit dist b', ¬ Header b lit dist b'
  | .fault => False

theorem dynamicTrees_spec {r : Reader} (hi : Inv r) : TreesOf (view r) (dynamicTrees r) := by
  rw [dynamicTrees_eq]
  have h := readHeader_exact hi
  revert h
  generalize readHeader r = y
  intro h
  cases y with
  | fault => exact h
  | err e =>
    intro lit dist b' hh
    exact h _ _ (header_iff.1 hh).1
  | ok p =>
    obtain ⟨⟨n, ls⟩, r'⟩ := p
    obtain ⟨hi', h⟩ := h
    have hself := (h (n, ls) (view r')).2 ⟨rfl, rfl⟩
    obtain ⟨hn1, hn2, hn3⟩ := lengths_split hself
    simp only at hn1 hn2 hn3
    have hsplit : ∀ lit dist b', Lengths (view r) (lit.length, lit ++ dist) b' ↔ lit = ls.take n ∧ dist = ls.drop n ∧ b' = view r' := by
      intro lit dist b'
      rw [h]
      constructor
      · rintro ⟨he, rfl⟩
        rw [Prod.mk.injEq] at he
        refine ⟨?_, ?_, rfl⟩
        · rw [← he.1, ← he.2]; simp
        · rw [← he.1, ← he.2]; simp
      · rintro ⟨rfl, rfl, rfl⟩
        refine ⟨?_, rfl⟩
        rw [Prod.mk.injEq]
        refine ⟨by rw [List.length_take]; omega, List.take_append_drop n ls⟩
    show TreesOf (view r) ((build (ls.take n) 15 true true).bind _)
    have hb := build_spec (lens := ls.take n) (n := 15) (single := true) (requireEnd := true) (by rw [List.length_take]; omega) (by omega) (by omega)
    have hval : Valid 15 true true (ls.take n) ↔ LiteralCodes (ls.take n) := by
      simp only [Valid, LiteralCodes, true_and, forall_const]
      constructor
      · rintro ⟨⟨l, h1, h2⟩, h | h | h⟩
        · exact ⟨⟨l, h1, h2⟩, .inl h⟩
        · exact ⟨⟨l, h1, h2⟩, .inr h⟩
        · exact absurd (h l (List.mem_of_getElem? h1)) h2
      · rintro ⟨h1, h | h⟩
        · exact ⟨h1, .inl h⟩
        · exact ⟨h1, .inr (.inl h)⟩
    revert hb
    generalize build (ls.take n) 15 true true = z
    intro hb
    cases z with
    | fault => exact hb
    | err e =>
      intro lit dist b' hh
      obtain ⟨h1, h2, h3⟩ := header_iff.1 hh
      obtain ⟨rfl, rfl, rfl⟩ := (hsplit _ _ _).1 h1
      exact hb (hval.2 h2)
    | ok lt =>
      obtain ⟨hv1, ht1⟩ := hb
      show TreesOf (view r) ((build (ls.drop n) 15 true false).bind _)
      have hb := build_spec (lens := ls.drop n) (n := 15) (single := true) (requireEnd := false) (by
        rw [List.length_drop]
        obtain ⟨hlit, b1, hdist, b2, hclen, b3, vs, b4, c, _, _, _, h4, h5, _, _, _, h9, h10⟩ := hself
        have := runs_length h9
        simp only at this h10
        omega) (by omega) (by omega)
      have hval' : Valid 15 true false (ls.drop n) ↔ DistanceCodes (ls.drop n) := by
        simp [Valid, DistanceCodes]
      revert hb
      generalize build (ls.drop n) 15 true false = z
      intro hb
      cases z with
      | fault => exact hb
      | err e =>
        intro lit dist b' hh
        obtain ⟨h1, h2, h3⟩ := header_iff.1 hh
        obtain ⟨rfl, rfl, rfl⟩ := (hsplit _ _ _).1 h1
        exact hb (hval'.2 h3)
      | ok dt =>
        refine ⟨_, _, ht1, hb.2, hi', fun lit dist b' => ?_⟩
        rw [header_iff, hsplit]
        constructor
        · exact fun h => h.1
        · rintro ⟨rfl, rfl, rfl⟩
          exact ⟨⟨rfl, rfl, rfl⟩, hval.1 hv1, hval'.1 hb.1⟩

set_option maxRecDepth 10000 in
/-- The trees of blocks without codes of their own. -/
theorem fixedTrees_spec : ∃ lt dt, fixedTrees = .ok (lt, dt) ∧ IsTree lt ((List.range 288).map Spec.fixedLiteral) ∧ IsTree dt (List.replicate 32 5) := by
  have e : List.replicate 144 8 ++ List.replicate 112 9 ++ List.replicate 24 7 ++ List.replicate 8 8 = (List.range 288).map Spec.fixedLiteral := by
    decide +kernel
  have h1 := build_spec (lens := (List.range 288).map Spec.fixedLiteral) (n := 15) (single := true) (requireEnd := true) (by simp) (by omega) (by omega)
  have h2 := build_spec (lens := List.replicate 32 5) (n := 15) (single := true) (requireEnd := false) (by simp) (by omega) (by omega)
  have v1 : Valid 15 true true ((List.range 288).map Spec.fixedLiteral) :=
    ⟨fun _ => ⟨7, by decide +kernel, by decide⟩, .inl ⟨by decide +kernel, by decide +kernel⟩⟩
  have v2 : Valid 15 true false (List.replicate 32 5) := ⟨fun h => (by cases h), .inl ⟨by decide +kernel, by decide +kernel⟩⟩
  rw [fixedTrees, e]
  revert h1
  generalize build ((List.range 288).map Spec.fixedLiteral) 15 true true = y
  intro h1
  cases y with
  | fault => exact h1.elim
  | err => exact absurd v1 h1
  | ok lt =>
    revert h2
    generalize build (List.replicate 32 5) 15 true false = z
    intro h2
    cases z with
    | fault => exact h2.elim
    | err => exact absurd v2 h2
    | ok dt => exact ⟨lt, dt, rfl, h1.2, h2.2⟩

end Nature.Inflate
