import Verif.PageAlloc.Runs
/-! `merge_summarize` and `summary_find_continuous`. -/
namespace Nature.PageAlloc
open Nature

variable {free : Nat → Bool}

/-- The children describe consecutive regions of `N` pages starting at `lo`. -/
def ExactList (free : Nat → Bool) (N : Nat) : Nat → List Summary → Prop
  | _, [] => True
  | lo, s :: r => Exact free lo (lo + N) s ∧ ExactList free N (lo + N) r

theorem exactList_append {N lo : Nat} {l : List Summary} {s : Summary} :
    ExactList free N lo (l ++ [s]) ↔
      ExactList free N lo l ∧ Exact free (lo + N * l.length) (lo + N * l.length + N) s := by
  induction l generalizing lo with
  | nil => simp [ExactList]
  | cons a l ih =>
    simp only [List.cons_append, ExactList, ih, List.length_cons, and_assoc]
    rw [show lo + N + N * l.length = lo + N * (l.length + 1) by rw [Nat.mul_add]; omega]

theorem exact_tail_full {lo hi : Nat} {s : Summary} (h : Exact free lo hi s) (ht : s.tail = hi - lo) :
    s.start = hi - lo ∧ s.max = hi - lo := by
  have hlh : lo ≤ hi := by have := h.tail.1; omega
  have hf : AllFree free lo (hi - lo) := by
    have := h.tail.2.1
    rw [ht, show hi - (hi - lo) = lo by omega] at this
    exact this
  have := h.unique (exact_free hlh hf)
  rw [this]; exact ⟨rfl, rfl⟩

theorem exact_start_full {lo hi : Nat} {s : Summary} (h : Exact free lo hi s) (ht : s.start = hi - lo) :
    s.tail = hi - lo ∧ s.max = hi - lo := by
  have hlh : lo ≤ hi := by have := h.tail.1; omega
  have hf : AllFree free lo (hi - lo) := by
    have := h.lead.2.1
    rw [ht] at this
    exact this
  have := h.unique (exact_free hlh hf)
  rw [this]; exact ⟨rfl, rfl⟩

theorem mergeStep_inv {N lo mid : Nat} {st : Nat × Nat} {s : Summary}
    (ht : TailIs free lo mid st.2) (hm : MaxIs free lo mid st.1) (hs : Exact free mid (mid + N) s)
    (hb : mid + N - lo < 2 ^ 32) :
    TailIs free lo (mid + N) (mergeStep N st s).2 ∧ MaxIs free lo (mid + N) (mergeStep N st s).1 := by
  have hlo : lo ≤ mid := by have := ht.1; omega
  have ta := tail_append ht hs.tail
  have ma := max_append hm ht hs.lead hs.max
  have lm := ma.le
  rw [show mid + N - mid = N by omega] at ta
  unfold mergeStep
  simp only
  have ecm : (if s.max > st.2 + s.start then s.max else st.2 + s.start) = Nat.max s.max (st.2 + s.start) := by
    simp only [Nat.max_def]; split <;> split <;> omega
  rw [ecm]
  have hle : Nat.max s.max (st.2 + s.start) ≤ Nat.max st.1 (Nat.max s.max (st.2 + s.start)) := Nat.le_max_right _ _
  rw [u32, Nat.mod_eq_of_lt (by omega)]
  constructor
  · by_cases hfull : s.tail = N
    · have := exact_tail_full hs (by omega)
      rw [show mid + N - mid = N by omega] at this
      rw [if_pos hfull] at ta
      simp only [hfull, ne_eq, not_true, if_false, this.1, this.2]
      have e : Nat.max N (st.2 + N) = st.2 + s.tail := by rw [hfull]; exact Nat.max_eq_right (by omega)
      rw [e]; exact ta
    · rw [if_neg hfull] at ta
      simp only [ne_eq, hfull, not_false_eq_true, if_true]
      exact ta
  · have e : (if Nat.max s.max (st.2 + s.start) > st.1 then Nat.max s.max (st.2 + s.start) else st.1) =
        Nat.max st.1 (Nat.max s.max (st.2 + s.start)) := by
      generalize Nat.max s.max (st.2 + s.start) = q
      simp only [Nat.max_def]; split <;> split <;> omega
    rw [e]; exact ma

theorem mergeMax_eq_foldl (N : Nat) (st : Nat × Nat) (l : List Summary) :
    mergeMax N st l = l.foldl (mergeStep N) st := by
  fun_induction mergeMax N st l with
  | case1 => rfl
  | case2 => rfl
  | case3 st s0 s1 rest ih => simpa using ih

theorem merge_fold_inv {N lo mid : Nat} {st : Nat × Nat} (l : List Summary)
    (ht : TailIs free lo mid st.2) (hm : MaxIs free lo mid st.1) (hs : ExactList free N mid l)
    (hb : mid + N * l.length - lo < 2 ^ 32) :
    TailIs free lo (mid + N * l.length) (l.foldl (mergeStep N) st).2 ∧
      MaxIs free lo (mid + N * l.length) (l.foldl (mergeStep N) st).1 := by
  induction l generalizing mid st with
  | nil => simpa using ⟨ht, hm⟩
  | cons s l ih =>
    simp only [List.length_cons, List.foldl_cons] at hb ⊢
    have e : mid + N * (l.length + 1) = mid + N + N * l.length := by rw [Nat.mul_add]; omega
    rw [e] at hb ⊢
    have := mergeStep_inv ht hm hs.1 (by omega)
    exact ih this.1 this.2 hs.2 hb

theorem mergeStart_spec {N lo mid acc : Nat} (l : List Summary) (hl : LeadIs free lo mid acc) (hfull : lo + acc = mid)
    (hs : ExactList free N mid l) (hb : mid + N * l.length - lo < 2 ^ 32) :
    LeadIs free lo (mid + N * l.length) (mergeStart N acc l) := by
  induction l generalizing mid acc with
  | nil => simpa [mergeStart] using hl
  | cons s l ih =>
    simp only [List.length_cons] at hb ⊢
    have e : mid + N * (l.length + 1) = mid + N + N * l.length := by rw [Nat.mul_add]; omega
    rw [e] at hb ⊢
    have hla := lead_append hl hs.1.lead
    rw [if_pos (by omega)] at hla
    have hle := hs.1.lead.1
    unfold mergeStart
    rw [u32, Nat.mod_eq_of_lt (by omega)]
    simp only
    by_cases hc : s.start = N
    · simp only [hc, ne_eq, not_true, if_false]
      rw [hc] at hla
      exact ih hla (by omega) hs.2 hb
    · simp only [ne_eq, hc, not_false_eq_true, if_true]
      refine ⟨by omega, hla.2.1, fun _ => hla.2.2 (by omega)⟩

theorem mergeTail_spec {N lo hi acc : Nat} (r : List Summary) (ht : TailIs free (lo + N * r.length) hi acc)
    (hfull : lo + N * r.length + acc = hi) (hs : ExactList free N lo r.reverse) (hb : hi - lo < 2 ^ 32) :
    TailIs free lo hi (mergeTail N acc r) := by
  induction r generalizing acc with
  | nil => simpa [mergeTail] using ht
  | cons s r ih =>
    simp only [List.reverse_cons, List.length_cons] at hs ht hfull ⊢
    rw [exactList_append, List.length_reverse] at hs
    have e : lo + N * (r.length + 1) = lo + N * r.length + N := by rw [Nat.mul_add]; omega
    rw [e] at ht hfull
    have hta := tail_append hs.2.tail ht
    rw [if_pos (by omega)] at hta
    have hle := hs.2.tail.1
    unfold mergeTail
    rw [u32, Nat.mod_eq_of_lt (by omega)]
    simp only
    by_cases hc : s.tail = N
    · simp only [hc, ne_eq, not_true, if_false]
      rw [hc, Nat.add_comm N acc] at hta
      exact ih hta (by omega) hs.1
    · simp only [ne_eq, hc, not_false_eq_true, if_true]
      rw [Nat.add_comm s.tail acc] at hta
      have hs1 := hs.2.tail.1
      refine ⟨by omega, hta.2.1, fun _ => hta.2.2 (by omega)⟩

theorem levelPages_mul (level : Nat) (h : level < 4) : levelPages (level + 1) * 8 = levelPages level := by
  match level, h with
  | 0, _ => rfl
  | 1, _ => rfl
  | 2, _ => rfl
  | 3, _ => rfl

theorem levelPages_le (level : Nat) : levelPages level ≤ 2097152 := by
  unfold levelPages; split <;> omega

theorem levelPages_pos (level : Nat) : 0 < levelPages level := by
  unfold levelPages; split <;> omega

theorem mergeSummarize_spec {level lo : Nat} (h : level < 4) (l : List Summary) (hl : l.length = 8)
    (hs : ExactList free (levelPages (level + 1)) lo l) :
    ∃ s, mergeSummarize level l = .ok s ∧ Exact free lo (lo + levelPages level) s := by
  have hN := levelPages_mul level h
  have hle := levelPages_le level
  have e8 : lo + levelPages (level + 1) * l.length = lo + levelPages level := by rw [hl, hN]
  have hm := merge_fold_inv l (st := (0, 0)) (tail_empty lo) (max_empty lo) hs (by omega)
  have hst := mergeStart_spec l (lead_empty lo) (by omega) hs (by omega)
  have htl := mergeTail_spec (free := free) (N := levelPages (level + 1)) (lo := lo) (hi := lo + levelPages level) (acc := 0) l.reverse
    (by rw [List.length_reverse, e8]; exact tail_empty _) (by rw [List.length_reverse, e8]; rfl) (by simpa using hs) (by omega)
  rw [e8] at hm hst
  unfold mergeSummarize
  simp only [mergeMax_eq_foldl]
  have b1 := hst.1
  have b2 := hm.2.le
  have b3 := htl.1
  rw [if_pos ⟨by omega, by omega, by omega⟩]
  exact ⟨_, rfl, hst, htl, hm.2⟩

/-! ### summary_find_continuous -/

/-- Loop invariant of the search over summaries: at index `i`, with everything from block `st0` on scanned. -/
structure FindInv (free : Nat → Bool) (N n st0 i fs fm : Nat) : Prop where
  tail : TailIs free (st0 * N) (i * N) fm
  norun : ¬ HasRun free (st0 * N) (i * N) n
  lb : st0 ≤ fs
  zero : fm = 0 → fs = i
  pos : 0 < fm → fs < i ∧ fs * N ≤ i * N - fm ∧ i * N - fm < (fs + 1) * N

/-- What a successful search guarantees about the blocks `fs..fe`. -/
structure Found (free : Nat → Bool) (N n st0 fin fs fe : Nat) (tailOf : Nat → Nat) : Prop where
  lb : st0 ≤ fs
  le : fs ≤ fe
  ub : fe < fin
  run : HasRun free (fs * N) ((fe + 1) * N) n
  cross : fs < fe → AllFree free ((fs + 1) * N - tailOf fs) n ∧ (fs + 1) * N - tailOf fs + n ≤ (fe + 1) * N ∧
    tailOf fs ≤ N ∧ 0 < tailOf fs

theorem findLoop_spec {N n : Nat} (hN : 0 < N) (hn : 0 < n) (sums : Nat → Summary) (st0 fin : Nat)
    (hs : ∀ i, st0 ≤ i → i < fin → Exact free (i * N) ((i + 1) * N) (sums i))
    (k i fs fm : Nat) (hk : i + k = fin) (h : FindInv free N n st0 i fs fm) :
    match findLoop N sums n fin k i fs fm with
    | (true, fs', fe') => Found free N n st0 fin fs' fe' (fun j => (sums j).tail)
    | (false, _, _) => ¬ HasRun free (st0 * N) (fin * N) n := by
  induction k generalizing i fs fm with
  | zero =>
    unfold findLoop
    simp only
    have : i = fin := by omega
    rw [← this]; exact h.norun
  | succ k ih =>
    have hst : st0 ≤ i := by
      have := h.lb
      by_cases c : fm = 0
      · have := h.zero c; omega
      · have := (h.pos (by omega)).1; omega
    have he := hs i hst (by omega)
    have e1 : (i + 1) * N = i * N + N := by rw [Nat.add_mul]; omega
    have hmul : st0 * N ≤ i * N := Nat.mul_le_mul_right N hst
    obtain ⟨tl, tf, tn⟩ := h.tail
    unfold findLoop
    simp only
    have sl := he.lead.1
    by_cases c1 : fm + (sums i).start ≥ n
    · -- found by extending the run from the left
      rw [if_pos c1]
      simp only
      by_cases c0 : fm = 0
      · have := h.zero c0
        subst this
        refine ⟨hst, Nat.le_refl _, by omega, ?_, fun hh => by omega⟩
        exact ⟨fs * N, Nat.le_refl _, by omega, he.lead.2.1.sub (Nat.le_refl _) (by omega)⟩
      · obtain ⟨p1, p2, p3⟩ := h.pos (by omega)
        have hcomb : AllFree free (i * N - fm) n := by
          have : AllFree free (i * N - fm) (fm + (sums i).start) :=
            tf.append (by rw [show i * N - fm + fm = i * N by omega]; exact he.lead.2.1)
          exact this.sub (Nat.le_refl _) (by omega)
        refine ⟨h.lb, by omega, by omega, ⟨i * N - fm, p2, by omega, hcomb⟩, fun _ => ?_⟩
        -- the tail of block fs starts exactly where the run starts
        have hef := hs fs h.lb (by omega)
        have efs : (fs + 1) * N = fs * N + N := by rw [Nat.add_mul]; omega
        have hfi : (fs + 1) * N ≤ i * N := Nat.mul_le_mul_right N (by omega)
        have hst0 : st0 * N ≤ fs * N := Nat.mul_le_mul_right N h.lb
        have ht : (sums fs).tail = (fs + 1) * N - (i * N - fm) := by
          refine hef.tail.unique ⟨by omega, ?_, fun hlt => ?_⟩
          · rw [show (fs + 1) * N - ((fs + 1) * N - (i * N - fm)) = i * N - fm by omega]
            exact tf.sub (Nat.le_refl _) (by omega)
          · rw [show (fs + 1) * N - ((fs + 1) * N - (i * N - fm)) - 1 = i * N - fm - 1 by omega]
            exact tn (by omega)
        rw [ht, show (fs + 1) * N - ((fs + 1) * N - (i * N - fm)) = i * N - fm by omega]
        exact ⟨hcomb, by omega, by omega, by omega⟩
    · rw [if_neg c1]
      have norun : (sums i).max < n → ¬ HasRun free (st0 * N) ((i + 1) * N) n := by
        rintro hmx ⟨a, a1, a2, a3⟩
        by_cases d1 : a + n ≤ i * N
        · exact h.norun ⟨a, a1, d1, a3⟩
        · by_cases d2 : i * N ≤ a
          · have := he.max.2 n ⟨a, d2, a2, a3⟩; omega
          · have q1 := h.tail.bound (k := i * N - a) (by omega) (a3.sub (by omega) (by omega))
            have q2 := he.lead.bound (k := a + n - i * N) (by omega) (a3.sub (by omega) (by omega))
            omega
      by_cases c2 : (sums i).max > fm + (sums i).start
      · simp only [c2, if_true]
        by_cases c3 : (sums i).max ≥ n
        · rw [if_pos c3]
          simp only
          exact ⟨hst, Nat.le_refl _, by omega, he.max.1.le c3, fun hh => by omega⟩
        · rw [if_neg c3]
          have nr := norun (by omega)
          have ht := tail_append h.tail he.tail
          rw [show (i + 1) * N - i * N = N by omega] at ht
          have htl := he.tail.1
          by_cases c4 : (sums i).tail = N
          · have := exact_tail_full he (by omega)
            omega
          · simp only [ne_eq, c4, not_false_eq_true, if_true]
            rw [if_neg c4] at ht
            by_cases c5 : (sums i).tail > 0
            · rw [if_pos c5]
              exact ih (i + 1) i _ (by omega) ⟨ht, nr, hst, fun hh => by omega, fun _ => ⟨by omega, by omega, by omega⟩⟩
            · rw [if_neg c5]
              rw [show (sums i).tail = 0 by omega] at ht
              exact ih (i + 1) (i + 1) 0 (by omega) ⟨ht, nr, by omega, fun _ => rfl, fun hh => by omega⟩
      · simp only [c2, if_false]
        rw [if_neg c1]
        have nr := norun (by omega)
        have ht := tail_append h.tail he.tail
        rw [show (i + 1) * N - i * N = N by omega] at ht
        have htl := he.tail.1
        by_cases c4 : (sums i).tail = N
        · have hfull := exact_tail_full he (by omega)
          simp only [ne_eq, c4, not_true, if_false]
          rw [if_pos c4, c4] at ht
          rw [show (i + 1) * N - i * N = N by omega] at hfull
          rw [hfull.1]
          refine ih (i + 1) fs _ (by omega) ⟨ht, nr, h.lb, fun hh => by omega, fun _ => ?_⟩
          rw [show (i + 1) * N - (fm + N) = i * N - fm by omega]
          by_cases c0 : fm = 0
          · have := h.zero c0
            subst this
            exact ⟨by omega, by omega, by omega⟩
          · have := h.pos (by omega)
            exact ⟨by omega, this.2.1, this.2.2⟩
        · simp only [ne_eq, c4, not_false_eq_true, if_true]
          rw [if_neg c4] at ht
          by_cases c5 : (sums i).tail > 0
          · rw [if_pos c5]
            exact ih (i + 1) i _ (by omega) ⟨ht, nr, hst, fun hh => by omega, fun _ => ⟨by omega, by omega, by omega⟩⟩
          · rw [if_neg c5]
            rw [show (sums i).tail = 0 by omega] at ht
            exact ih (i + 1) (i + 1) 0 (by omega) ⟨ht, nr, by omega, fun _ => rfl, fun hh => by omega⟩

theorem summaryFind_spec {level n : Nat} (hn : 0 < n) (sums : Nat → Summary) (st0 fin : Nat) (hle : st0 ≤ fin)
    (hs : ∀ i, st0 ≤ i → i < fin → Exact free (i * levelPages level) ((i + 1) * levelPages level) (sums i)) :
    match summaryFind level sums st0 fin n with
    | (true, fs', fe') => Found free (levelPages level) n st0 fin fs' fe' (fun j => (sums j).tail)
    | (false, _, _) => ¬ HasRun free (st0 * levelPages level) (fin * levelPages level) n := by
  unfold summaryFind
  exact findLoop_spec (levelPages_pos level) hn sums st0 fin hs (fin - st0) st0 st0 0 (by omega)
    ⟨tail_empty _, by rintro ⟨a, h1, h2, _⟩; omega, Nat.le_refl _, fun _ => rfl, fun h => by omega⟩

end Nature.PageAlloc
