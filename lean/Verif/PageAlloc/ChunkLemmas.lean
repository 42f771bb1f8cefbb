import Verif.PageAlloc.Runs
/-! One chunk: `chunk_summarize` and the in-chunk search. -/
namespace Nature.PageAlloc
open Nature

/-! ### bits of a block -/

theorem ctz_spec {w : BitVec 64} (h : w ≠ 0) :
    ∃ z, ctz w = some z ∧ z < 64 ∧ w.getLsbD z = true ∧ ∀ i, i < z → w.getLsbD i = false := by
  cases hc : ctz w with
  | none =>
    exfalso; apply h
    apply BitVec.eq_of_getLsbD_eq
    intro i hi
    have := List.find?_range_eq_none.1 hc i hi
    simpa using this
  | some z =>
    have := List.find?_range_eq_some.1 hc
    refine ⟨z, rfl, by simpa using this.2.1, this.1, fun i hi => ?_⟩
    have h3 := this.2.2 i hi
    simpa using h3

theorem clz_spec {w : BitVec 64} (h : w ≠ 0) :
    ∃ z, clz w = some z ∧ z < 64 ∧ w.getLsbD (63 - z) = true ∧ ∀ i, 63 - z < i → i < 64 → w.getLsbD i = false := by
  cases hc : clz w with
  | none =>
    exfalso; apply h
    apply BitVec.eq_of_getLsbD_eq
    intro i hi
    have := List.find?_range_eq_none.1 hc (63 - i) (by omega)
    rw [show 63 - (63 - i) = i by omega] at this
    simpa using this
  | some z =>
    have := List.find?_range_eq_some.1 hc
    have hz : z < 64 := by simpa using this.2.1
    refine ⟨z, rfl, hz, this.1, fun i hi hi2 => ?_⟩
    have h3 := this.2.2 (63 - i) (by omega)
    rw [show 63 - (63 - i) = i by omega] at h3
    simpa using h3

theorem shr_and_one (w : BitVec 64) (i : Nat) : ((w >>> i) &&& 1 != 0) = w.getLsbD i := by
  cases h : w.getLsbD i with
  | true =>
    simp only [bne_iff_ne, ne_eq]
    intro hh
    have := congrArg (fun x => x.getLsbD 0) hh
    simp only [BitVec.getLsbD_and, BitVec.getLsbD_ushiftRight] at this
    simp [h] at this
  | false =>
    simp only [bne_eq_false_iff_eq]
    apply BitVec.eq_of_getLsbD_eq
    intro j hj
    simp only [BitVec.getLsbD_and, BitVec.getLsbD_ushiftRight]
    by_cases hj0 : j = 0
    · subst hj0; simp [h]
    · have : (1#64).getLsbD j = false := by
        simp [BitVec.getLsbD_one, hj0]
      simp [this]

theorem used_cons_lt {w : BitVec 64} {c : Chunk} {i : Nat} (h : i < 64) : used (w :: c) i = w.getLsbD i := by
  simp [used, show i / 64 = 0 by omega, show i % 64 = i by omega]

theorem used_cons_ge {w : BitVec 64} {c : Chunk} {i : Nat} (h : 64 ≤ i) : used (w :: c) i = used c (i - 64) := by
  simp only [used]
  rw [show i / 64 = (i - 64) / 64 + 1 by omega, show i % 64 = (i - 64) % 64 by omega]
  simp

theorem used_append_lt {c d : Chunk} {i : Nat} (h : i < 64 * c.length) : used (c ++ d) i = used c i := by
  simp only [used]
  rw [List.getElem?_append_left (by omega)]

theorem used_append_ge {c d : Chunk} {i : Nat} (h : 64 * c.length ≤ i) : used (c ++ d) i = used d (i - 64 * c.length) := by
  simp only [used]
  rw [List.getElem?_append_right (by omega)]
  rw [show i / 64 - c.length = (i - 64 * c.length) / 64 by omega, show i % 64 = (i - 64 * c.length) % 64 by omega]

theorem fold_or_zero (c : Chunk) (a : BitVec 64) : c.foldl (· ||| ·) a = 0 ↔ a = 0 ∧ ∀ w ∈ c, w = 0 := by
  induction c generalizing a with
  | nil => simp
  | cons w c ih =>
    simp only [List.foldl_cons, ih, List.mem_cons, forall_eq_or_imp]
    have : a ||| w = 0 ↔ a = 0 ∧ w = 0 := by
      constructor
      · intro h
        have hb : ∀ i, i < 64 → a.getLsbD i = false ∧ w.getLsbD i = false := by
          intro i hi
          have := congrArg (fun x => x.getLsbD i) h
          simpa using this
        exact ⟨BitVec.eq_of_getLsbD_eq fun i hi => by simp [(hb i hi).1],
          BitVec.eq_of_getLsbD_eq fun i hi => by simp [(hb i hi).2]⟩
      · rintro ⟨rfl, rfl⟩; simp
    rw [this, and_assoc]

theorem firstUsed_spec (c : Chunk) (idx : Nat) (hb : (idx + c.length) * 64 ≤ 65536) (h : ∃ w ∈ c, w ≠ 0) :
    ∃ r, firstUsed c idx = .ok (idx * 64 + r) ∧ r < 64 * c.length ∧ used c r = true ∧ ∀ i, i < r → used c i = false := by
  induction c generalizing idx with
  | nil => simp at h
  | cons w c ih =>
    simp only [List.length_cons] at hb ⊢
    unfold firstUsed
    by_cases hw : w = 0
    · have h' : ∃ w ∈ c, w ≠ 0 := by
        obtain ⟨x, hx, hx0⟩ := h
        rcases List.mem_cons.1 hx with rfl | hx
        · exact absurd hw hx0
        · exact ⟨x, hx, hx0⟩
      obtain ⟨r, e, hr, hu, hl⟩ := ih (idx + 1) (by omega) h'
      refine ⟨r + 64, by simp only [hw, ne_eq, not_true, if_false, e]; congr 1; omega, by omega, ?_, ?_⟩
      · rw [used_cons_ge (by omega)]; simpa using hu
      · intro i hi
        by_cases c1 : i < 64
        · rw [used_cons_lt c1, hw]; simp
        · rw [used_cons_ge (by omega)]; exact hl _ (by omega)
    · obtain ⟨z, e, hz, hu, hl⟩ := ctz_spec hw
      refine ⟨z, ?_, by omega, by rw [used_cons_lt hz]; exact hu, fun i hi => by rw [used_cons_lt (by omega)]; exact hl i hi⟩
      simp only [hw, ne_eq, not_false_eq_true, if_true, e]
      rw [u16, Nat.mod_eq_of_lt (by omega)]

theorem lastUsed_spec (l : Chunk) (hb : l.length * 64 ≤ 65536) (h : ∃ w ∈ l, w ≠ 0) :
    ∃ r, lastUsed l = .ok r ∧ r < 64 * l.length ∧ used l.reverse r = true ∧
      ∀ i, r < i → i < 64 * l.length → used l.reverse i = false := by
  induction l with
  | nil => simp at h
  | cons w c ih =>
    simp only [List.length_cons] at hb ⊢
    unfold lastUsed
    simp only [List.reverse_cons]
    by_cases hw : w = 0
    · have h' : ∃ w ∈ c, w ≠ 0 := by
        obtain ⟨x, hx, hx0⟩ := h
        rcases List.mem_cons.1 hx with rfl | hx
        · exact absurd hw hx0
        · exact ⟨x, hx, hx0⟩
      obtain ⟨r, e, hr, hu, hl⟩ := ih (by omega) h'
      refine ⟨r, by simp [hw, e], by omega, ?_, ?_⟩
      · rw [used_append_lt (by simpa using hr)]; exact hu
      · intro i hi hi2
        by_cases c1 : i < 64 * c.length
        · rw [used_append_lt (by simpa using c1)]; exact hl i hi c1
        · rw [used_append_ge (by simp; omega), List.length_reverse, used_cons_lt (by omega), hw]; simp
    · obtain ⟨z, e, hz, hu, hl⟩ := clz_spec hw
      refine ⟨c.length * 64 + (63 - z), ?_, by omega, ?_, fun i hi hi2 => ?_⟩
      · simp only [hw, ne_eq, not_false_eq_true, if_true, e]
        rw [u16, Nat.mod_eq_of_lt (by omega)]
      · rw [used_append_ge (by simp; omega), List.length_reverse, used_cons_lt (by omega),
          show c.length * 64 + (63 - z) - 64 * c.length = 63 - z by omega]
        exact hu
      · rw [used_append_ge (by simp; omega), List.length_reverse, used_cons_lt (by omega)]
        exact hl _ (by omega) (by omega)

/-! ### the longest run -/

/-- Loop invariant of the scan at position `n`. -/
def ScanInv (free : Nat → Bool) (n : Nat) (st : Nat × Nat) : Prop :=
  TailIs free 0 n st.2 ∧ MaxIs free 0 n (Nat.max st.1 st.2)

theorem scanInv_free {free : Nat → Bool} {n m : Nat} {st : Nat × Nat} (h : ScanInv free n st)
    (hf : AllFree free n m) (hm : 0 < m) : ScanInv free (n + m) (st.1, st.2 + m) := by
  have he := exact_free (show n ≤ n + m by omega) (by rw [show n + m - n = m by omega]; exact hf)
  rw [show n + m - n = m by omega] at he
  constructor
  · have := tail_append h.1 he.tail
    rw [if_pos (by simp)] at this
    exact this
  · have := max_append h.2 h.1 he.lead he.max
    simp only at this ⊢
    have e : Nat.max (Nat.max st.1 st.2) (Nat.max m (st.2 + m)) = Nat.max st.1 (st.2 + m) := by
      simp only [Nat.max_def]; repeat' split
      all_goals omega
    rw [e] at this; exact this

theorem scanInv_used {free : Nat → Bool} {n m : Nat} {st : Nat × Nat} (h : ScanInv free n st)
    (hf : ∀ i, n ≤ i → i < n + m → free i = false) (hm : 0 < m) :
    ScanInv free (n + m) (if st.2 > st.1 then st.2 else st.1, 0) := by
  have he := exact_none (show n ≤ n + m by omega) hf
  constructor
  · have := tail_append h.1 he.tail
    rw [if_neg (by simp; omega)] at this
    exact this
  · have := max_append h.2 h.1 he.lead he.max
    simp only at this ⊢
    have e : Nat.max (Nat.max st.1 st.2) (Nat.max 0 (st.2 + 0)) = Nat.max (if st.2 > st.1 then st.2 else st.1) 0 := by
      simp only [Nat.max_def]; repeat' split
      all_goals omega
    rw [e] at this; exact this

theorem allOnes_bit (i : Nat) (h : i < 64) : (BitVec.allOnes 64).getLsbD i = true := by
  rw [BitVec.getLsbD_allOnes]; exact decide_eq_true h

theorem scanMixed_fold {free : Nat → Bool} {n : Nat} (b : BitVec 64) (k : Nat) {st : Nat × Nat} (h : ScanInv free n st)
    (hk : k ≤ 64) (hn : n + 64 < 2 ^ 32) (hf : ∀ i, i < 64 → free (n + i) = !b.getLsbD i) :
    ScanInv free (n + k) ((List.range k).foldl (fun st i => scanBit st ((b >>> i) &&& 1 != 0)) st) := by
  induction k with
  | zero => simpa using h
  | succ k ih =>
    have ih := ih (by omega)
    rw [List.range_succ, List.foldl_append]
    simp only [List.foldl_cons, List.foldl_nil, shr_and_one] at ih ⊢
    generalize (List.range k).foldl (fun st i => scanBit st (b.getLsbD i)) st = st' at ih ⊢
    have hb := hf k (by omega)
    unfold scanBit
    cases hv : b.getLsbD k with
    | true =>
      rw [hv] at hb
      simp only [if_true]
      exact scanInv_used (n := n + k) ih (m := 1) (by intro i h1 h2; rw [show i = n + k by omega]; simpa using hb) (by omega)
    | false =>
      rw [hv] at hb
      simp only [Bool.false_eq_true, if_false]
      have hle := ih.1.1
      rw [u32, Nat.mod_eq_of_lt (by omega)]
      exact scanInv_free (n := n + k) ih (m := 1) (by intro i h1 h2; rw [show i = n + k by omega]; simpa using hb) (by omega)

theorem scanBlock_inv {free : Nat → Bool} {n : Nat} {b : BitVec 64} {st : Nat × Nat} (h : ScanInv free n st)
    (hn : n + 64 < 2 ^ 32) (hf : ∀ i, i < 64 → free (n + i) = !b.getLsbD i) :
    ScanInv free (n + 64) (scanBlock st b) := by
  unfold scanBlock
  have hle := h.1.1
  by_cases h0 : b = 0
  · rw [if_pos h0, u32, Nat.mod_eq_of_lt (by omega)]
    refine scanInv_free h ?_ (by omega)
    intro i h1 h2
    have := hf (i - n) (by omega)
    rw [show n + (i - n) = i by omega] at this
    rw [this, h0]; simp
  · rw [if_neg h0]
    by_cases h1 : b = BitVec.allOnes 64
    · rw [if_pos h1]
      refine scanInv_used h ?_ (by omega)
      intro i hi1 hi2
      have := hf (i - n) (by omega)
      rw [show n + (i - n) = i by omega] at this
      rw [this, h1, allOnes_bit _ (by omega)]; rfl
    · rw [if_neg h1]
      exact scanMixed_fold b 64 h (Nat.le_refl _) hn hf

theorem scanBlocks_inv {free : Nat → Bool} (c : Chunk) {n : Nat} {st : Nat × Nat} (h : ScanInv free n st)
    (hn : n + 64 * c.length < 2 ^ 32) (hf : ∀ i, i < 64 * c.length → free (n + i) = !used c i) :
    ScanInv free (n + 64 * c.length) (c.foldl scanBlock st) := by
  induction c generalizing n st with
  | nil => simpa using h
  | cons b c ih =>
    simp only [List.length_cons, List.foldl_cons] at hn hf ⊢
    have h1 := scanBlock_inv (b := b) h (by omega) (fun i hi => by rw [hf i (by omega), used_cons_lt hi])
    have := ih h1 (by omega) (fun i hi => by
      rw [show n + 64 + i = n + (i + 64) by omega, hf (i + 64) (by omega), used_cons_ge (by omega)]
      simp)
    rw [show n + 64 * (c.length + 1) = n + 64 + 64 * c.length by omega]
    exact this

/-- `free` view of one chunk. -/
def chunkFree (c : Chunk) : Nat → Bool := fun i => !used c i

theorem used_of_zero {c : Chunk} (h : ∀ w ∈ c, w = 0) {i : Nat} (hi : i < 64 * c.length) : used c i = false := by
  unfold used
  have hlt : i / 64 < c.length := by omega
  rw [List.getElem?_eq_getElem hlt]
  simp only
  rw [h _ (List.getElem_mem hlt)]
  simp

theorem chunkSummarize_spec (c : Chunk) (hl : c.length = 8) :
    ∃ s, chunkSummarize c = .ok s ∧ Exact (chunkFree c) 0 512 s := by
  unfold chunkSummarize
  by_cases hz : c.foldl (· ||| ·) 0 = 0
  · rw [if_pos hz]
    refine ⟨_, rfl, ?_⟩
    have hall := ((fold_or_zero c 0).1 hz).2
    exact exact_free (show 0 ≤ 512 by omega) (fun i _ hi => by
      simp [chunkFree, used_of_zero hall (show i < 64 * c.length by omega)])
  · rw [if_neg hz]
    have hex : ∃ w ∈ c, w ≠ 0 := by
      by_cases hh : ∃ w ∈ c, w ≠ 0
      · exact hh
      · exfalso; apply hz; rw [fold_or_zero]
        refine ⟨rfl, fun w hw => ?_⟩
        by_cases h0 : w = 0
        · exact h0
        · exact absurd ⟨w, hw, h0⟩ hh
    obtain ⟨r, e1, hr, hu, hlow⟩ := firstUsed_spec c 0 (by omega) hex
    obtain ⟨q, e2, hq, hqu, hhigh⟩ := lastUsed_spec c.reverse (by simp [hl])
      (by obtain ⟨w, hw, h0⟩ := hex; exact ⟨w, by simpa using hw, h0⟩)
    simp only [List.length_reverse, List.reverse_reverse] at hq hqu hhigh
    rw [e1, e2]
    simp only [Res.bind]
    refine ⟨_, rfl, ?_⟩
    have hinv : ScanInv (chunkFree c) (0 + 64 * c.length) (c.foldl scanBlock (0, 0)) :=
      scanBlocks_inv c ⟨tail_empty 0, max_empty 0⟩ (by omega) (fun i _ => by simp [chunkFree])
    rw [hl] at hinv
    refine ⟨⟨by simp; omega, ?_, ?_⟩, ⟨?_, ?_, ?_⟩, ?_⟩
    · intro i _ hi
      simp only [Nat.zero_mul, Nat.zero_add] at hi
      simp [chunkFree, hlow i hi]
    · intro _; simp [chunkFree, hu]
    · simp only [u16, chunkBits]; rw [Nat.mod_eq_of_lt (by omega)]; omega
    · simp only [u16, chunkBits]; rw [Nat.mod_eq_of_lt (by omega)]
      intro i h1 h2
      simp [chunkFree, hhigh i (by omega) (by omega)]
    · simp only [u16, chunkBits]; rw [Nat.mod_eq_of_lt (by omega)]
      intro _
      rw [show 512 - (512 - 1 - q) - 1 = q by omega]
      simp [chunkFree, hqu]
    · have := hinv.2
      simp only
      have e : (if (c.foldl scanBlock (0, 0)).2 > (c.foldl scanBlock (0, 0)).1 then (c.foldl scanBlock (0, 0)).2
          else (c.foldl scanBlock (0, 0)).1) = Nat.max (c.foldl scanBlock (0, 0)).1 (c.foldl scanBlock (0, 0)).2 := by
        simp only [Nat.max_def]; split <;> split <;> omega
      rw [e]; exact this

/-! ### the in-chunk search -/

/-- Loop invariant of the search at position `pos`. -/
def SearchInv (free : Nat → Bool) (n pos : Nat) (st : Nat × Nat) : Prop :=
  TailIs free 0 pos st.2 ∧ (0 < st.2 → st.1 + st.2 = pos) ∧ ¬ HasRun free 0 pos n

/-- `cs` is the first start of `n` free pages, and the run ends by `hi`. -/
def FirstFit (free : Nat → Bool) (n hi cs : Nat) : Prop :=
  cs + n ≤ hi ∧ AllFree free cs n ∧ ∀ a, a < cs → ¬ AllFree free a n

theorem search_finish {free : Nat → Bool} {n pos m cs cc : Nat} (h : SearchInv free n pos (cs, cc))
    (hf : AllFree free pos m) (hn : n ≤ cc + m) :
    FirstFit free n (pos + m) (if cc = 0 then pos else cs) := by
  obtain ⟨⟨a1, a2, a3⟩, h2, h3⟩ := h
  simp only at a1 a2 a3 h2
  have hcs : (if cc = 0 then pos else cs) = pos - cc := by split <;> omega
  rw [hcs]
  refine ⟨by omega, ?_, fun a ha hfa => ?_⟩
  · have : AllFree free (pos - cc) (cc + m) := a2.append (by rw [show pos - cc + cc = pos by omega]; exact hf)
    exact this.sub (Nat.le_refl _) (by omega)
  · by_cases c1 : a + n ≤ pos
    · exact h3 ⟨a, by omega, c1, hfa⟩
    · have e := a3 (by omega)
      have := hfa (pos - cc - 1) (by omega) (by omega)
      rw [e] at this; cases this

theorem search_extend {free : Nat → Bool} {n pos m cs cc : Nat} (h : SearchInv free n pos (cs, cc))
    (hf : AllFree free pos m) (hm : 0 < m) (hn : cc + m < n) :
    SearchInv free n (pos + m) (if cc = 0 then pos else cs, cc + m) := by
  have hx := scanInv_free (free := free) (n := pos) (m := m) (st := (0, cc))
  obtain ⟨ht, h2, h3⟩ := h
  have he := exact_free (show pos ≤ pos + m by omega) (by rw [show pos + m - pos = m by omega]; exact hf)
  rw [show pos + m - pos = m by omega] at he
  have htt := tail_append ht he.tail
  rw [if_pos (by simp)] at htt
  simp only at h2 ht
  have := ht.1
  refine ⟨htt, fun _ => by simp only; split <;> omega, ?_⟩
  rintro ⟨a, _, ha, hfa⟩
  by_cases c1 : a + n ≤ pos
  · exact h3 ⟨a, by omega, c1, hfa⟩
  · by_cases c2 : pos ≤ a
    · omega
    · have := ht.bound (k := pos - a) (by omega) (hfa.sub (by omega) (by omega))
      omega

theorem search_used {free : Nat → Bool} {n pos m cs cc : Nat} (h : SearchInv free n pos (cs, cc)) (hn : 0 < n)
    (hf : ∀ i, pos ≤ i → i < pos + m → free i = false) (hm : 0 < m) :
    SearchInv free n (pos + m) (cs, 0) := by
  obtain ⟨ht, h2, h3⟩ := h
  have he := exact_none (show pos ≤ pos + m by omega) hf
  have htt := tail_append ht he.tail
  rw [if_neg (by simp; omega)] at htt
  refine ⟨htt, fun h => by simp at h, ?_⟩
  rintro ⟨a, _, ha, hfa⟩
  by_cases c1 : a + n ≤ pos
  · exact h3 ⟨a, by omega, c1, hfa⟩
  · have := hfa (a + n - 1) (by omega) (by omega)
    rw [hf _ (by omega) (by omega)] at this; cases this

theorem scanMixed_spec {free : Nat → Bool} {n : Nat} (b : BitVec 64) (base : Nat) (hn : 0 < n)
    (hf : ∀ i, i < 64 → free (base + i) = !b.getLsbD i) (k bit : Nat) (st : Nat × Nat) (hk : bit + k = 64)
    (h : SearchInv free n (base + bit) st) :
    match scanMixed b base n k bit st with
    | .inl r => FirstFit free n (base + 64) r
    | .inr st' => SearchInv free n (base + 64) st' := by
  induction k generalizing bit st with
  | zero =>
    unfold scanMixed
    simp only
    rw [show base + 64 = base + bit by omega]; exact h
  | succ k ih =>
    obtain ⟨cs, cc⟩ := st
    unfold scanMixed
    rw [shr_and_one]
    have hb := hf bit (by omega)
    cases hv : b.getLsbD bit with
    | true =>
      rw [hv] at hb
      simp only [if_true]
      exact ih (bit + 1) (cs, 0) (by omega)
        (search_used (pos := base + bit) h hn (m := 1) (by intro i h1 h2; rw [show i = base + bit by omega]; simpa using hb) (by omega))
    | false =>
      rw [hv] at hb
      simp only [Bool.false_eq_true, if_false]
      have haf : AllFree free (base + bit) 1 := by
        intro i h1 h2; rw [show i = base + bit by omega]; simpa using hb
      by_cases hc : cc + 1 ≥ n
      · rw [if_pos hc]
        have := search_finish h haf (by omega)
        exact ⟨by have := this.1; omega, this.2⟩
      · rw [if_neg hc]
        exact ih (bit + 1) _ (by omega) (search_extend (pos := base + bit) h haf (by omega) (by omega))

theorem scanChunk_spec {free : Nat → Bool} {n : Nat} (hn : 0 < n) (c : Chunk) (idx : Nat) (st : Nat × Nat)
    (hf : ∀ i, i < 64 * c.length → free (idx * 64 + i) = !used c i)
    (h : SearchInv free n (idx * 64) st) :
    match scanChunk n c idx st with
    | some r => FirstFit free n (idx * 64 + 64 * c.length) r
    | none => ¬ HasRun free 0 (idx * 64 + 64 * c.length) n := by
  induction c generalizing idx st with
  | nil => unfold scanChunk; simpa using h.2.2
  | cons b c ih =>
    obtain ⟨cs, cc⟩ := st
    simp only [List.length_cons] at hf ⊢
    have hb : ∀ i, i < 64 → free (idx * 64 + i) = !b.getLsbD i := fun i hi => by
      rw [hf i (by omega), used_cons_lt hi]
    have hrest : ∀ i, i < 64 * c.length → free ((idx + 1) * 64 + i) = !used c i := fun i hi => by
      rw [show (idx + 1) * 64 + i = idx * 64 + (i + 64) by omega, hf _ (by omega), used_cons_ge (by omega)]; simp
    have ih' := fun st h => ih (idx + 1) st hrest h
    rw [show (idx + 1) * 64 + 64 * c.length = idx * 64 + 64 * (c.length + 1) by omega,
      show (idx + 1) * 64 = idx * 64 + 64 by omega] at ih'
    unfold scanChunk
    by_cases h0 : b = 0
    · rw [if_pos h0]
      have haf : AllFree free (idx * 64) 64 := by
        intro i h1 h2
        have := hb (i - idx * 64) (by omega)
        rw [show idx * 64 + (i - idx * 64) = i by omega] at this
        rw [this, h0]; simp
      simp only
      by_cases hc : cc + 64 ≥ n
      · rw [if_pos hc]
        have := search_finish h haf (by omega)
        exact ⟨by have := this.1; omega, this.2⟩
      · rw [if_neg hc]
        exact ih' _ (search_extend h haf (by omega) (by omega))
    · rw [if_neg h0]
      by_cases h1 : b = BitVec.allOnes 64
      · rw [if_pos h1]
        refine ih' _ (search_used h hn ?_ (by omega))
        intro i hi1 hi2
        have := hb (i - idx * 64) (by omega)
        rw [show idx * 64 + (i - idx * 64) = i by omega] at this
        rw [this, h1, allOnes_bit _ (by omega)]; rfl
      · rw [if_neg h1]
        have hm := scanMixed_spec b (idx * 64) hn hb 64 0 (cs, cc) (by omega) (by simpa using h)
        cases hs : scanMixed b (idx * 64) n 64 0 (cs, cc) with
        | inl r =>
          rw [hs] at hm
          simp only at hm ⊢
          exact ⟨by have := hm.1; omega, hm.2⟩
        | inr st' =>
          rw [hs] at hm
          exact ih' _ hm

theorem chunkFind_spec (c : Chunk) (hl : c.length = 8) (n : Nat) (hn : 0 < n) :
    match chunkFind c n with
    | some r => FirstFit (chunkFree c) n 512 r
    | none => ¬ HasRun (chunkFree c) 0 512 n := by
  have := scanChunk_spec (free := chunkFree c) hn c 0 (0, 0) (fun i _ => by simp [chunkFree])
    ⟨by simpa using tail_empty 0, by simp, by rintro ⟨a, _, h, _⟩; omega⟩
  rw [hl] at this
  simpa [chunkFind] using this

end Nature.PageAlloc
