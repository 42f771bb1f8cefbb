import Verif.PageAlloc.ChunkLemmas
import Verif.PageAlloc.MergeLemmas
import Verif.Bitmap.Lemmas
/-! The radix tree: `chunks_set`, `page_summary_update`, `page_alloc_find`. -/
namespace Nature.PageAlloc
open Nature

/-! ### bytes of a chunk -/

theorem toBytes_length (c : Chunk) : (toBytes c).length = 8 * c.length := by
  induction c with
  | nil => rfl
  | cons w c ih =>
    simp only [toBytes, List.flatMap_cons, List.length_append, List.length_map, List.length_range, List.length_cons] at ih ⊢
    omega

theorem toBytes_get (c : Chunk) (k : Nat) (h : k < 8 * c.length) :
    (toBytes c)[k]? = (c[k / 8]?).map (fun w => w.extractLsb' (8 * (k % 8)) 8) := by
  induction c generalizing k with
  | nil => simp at h
  | cons w c ih =>
    simp only [List.length_cons] at h
    simp only [toBytes, List.flatMap_cons]
    by_cases h8 : k < 8
    · rw [List.getElem?_append_left (by simpa using h8)]
      rw [show k / 8 = 0 by omega, show k % 8 = k by omega]
      simp [h8]
    · rw [List.getElem?_append_right (by simp; omega)]
      simp only [List.length_map, List.length_range]
      have := ih (k - 8) (by omega)
      simp only [toBytes] at this
      rw [this, show k / 8 = (k - 8) / 8 + 1 by omega, show k % 8 = (k - 8) % 8 by omega]
      simp

theorem bit_toBytes (c : Chunk) (i : Nat) (h : i < 64 * c.length) : Bitmap.bit (toBytes c) i = some (used c i) := by
  unfold Bitmap.bit used
  rw [toBytes_get c (i / 8) (by omega)]
  have hlt : i / 64 < c.length := by omega
  rw [show i / 8 / 8 = i / 64 by omega, List.getElem?_eq_getElem hlt]
  simp only [Option.map_some, Option.some.injEq, BitVec.getLsbD_extractLsb']
  rw [show 8 * (i / 8 % 8) + i % 8 = i % 64 by omega]
  simp [show i % 8 < 8 by omega]

theorem ofBytes8_bit (l : List (BitVec 8)) (j : Nat) (h : j < 64) :
    (ofBytes8 l).getLsbD j = (l.getD (j / 8) 0).getLsbD (j % 8) := by
  unfold ofBytes8
  simp only [BitVec.getLsbD_append]
  have hj : j / 8 < 8 := by omega
  rcases (by omega : j / 8 = 0 ∨ j / 8 = 1 ∨ j / 8 = 2 ∨ j / 8 = 3 ∨ j / 8 = 4 ∨ j / 8 = 5 ∨ j / 8 = 6 ∨ j / 8 = 7) with
    h | h | h | h | h | h | h | h
  · rw [if_pos (by omega), h, show j % 8 = j by omega]
  · rw [if_neg (by omega), if_pos (by omega), h, show j % 8 = j - 8 by omega]
  · rw [if_neg (by omega), if_neg (by omega), if_pos (by omega), h, show j % 8 = j - 8 - 8 by omega]
  · rw [if_neg (by omega), if_neg (by omega), if_neg (by omega), if_pos (by omega), h, show j % 8 = j - 8 - 8 - 8 by omega]
  · rw [if_neg (by omega), if_neg (by omega), if_neg (by omega), if_neg (by omega), if_pos (by omega), h,
      show j % 8 = j - 8 - 8 - 8 - 8 by omega]
  · rw [if_neg (by omega), if_neg (by omega), if_neg (by omega), if_neg (by omega), if_neg (by omega), if_pos (by omega), h,
      show j % 8 = j - 8 - 8 - 8 - 8 - 8 by omega]
  · rw [if_neg (by omega), if_neg (by omega), if_neg (by omega), if_neg (by omega), if_neg (by omega), if_neg (by omega),
      if_pos (by omega), h, show j % 8 = j - 8 - 8 - 8 - 8 - 8 - 8 by omega]
  · rw [if_neg (by omega), if_neg (by omega), if_neg (by omega), if_neg (by omega), if_neg (by omega), if_neg (by omega),
      if_neg (by omega), h, show j % 8 = j - 8 - 8 - 8 - 8 - 8 - 8 - 8 by omega]

theorem used_ofBytes (bs : Bitmap.Bytes) (m i : Nat) (hl : bs.length = 8 * m) (h : i < 64 * m) :
    Bitmap.bit bs i = some (used (ofBytes m bs) i) := by
  unfold Bitmap.bit used ofBytes
  have hlt : i / 8 < bs.length := by omega
  rw [List.getElem?_eq_getElem hlt, List.getElem?_map, List.getElem?_range (by omega)]
  simp only [Option.map_some, Option.some.injEq]
  rw [ofBytes8_bit _ _ (by omega), List.getD_eq_getElem?_getD, List.getElem?_take_of_lt (by omega), List.getElem?_drop]
  rw [show 8 * (i / 64) + i % 64 / 8 = i / 8 by omega, List.getElem?_eq_getElem hlt]
  simp only [Option.getD_some]
  rw [show i % 64 % 8 = i % 8 by omega]

theorem ofBytes_length (m : Nat) (bs : Bitmap.Bytes) : (ofBytes m bs).length = m := by simp [ofBytes]

/-! ### the abstract free map -/

/-- Page `p` is free: its chunk has been handed to the page allocator and its bit is clear. -/
def pageFree (grown : Nat → Bool) (pa : PA) (p : Nat) : Bool :=
  grown (p / 512) && (match pa.chunks (p / 512) with
    | some c => !used c (p % 512)
    | none => false)

/-- The chunk table is well formed: grown chunks exist, the others (if their group exists) are untouched. -/
structure ChunksOk (grown : Nat → Bool) (pa : PA) : Prop where
  present : ∀ c, grown c = true → ∃ ch, pa.chunks c = some ch ∧ ch.length = 8
  fresh : ∀ c, grown c = false → ∀ ch, pa.chunks c = some ch → ch = List.replicate 8 0

/-- The invariant of the page allocator: every summary of every level is exact. -/
structure Inv (grown : Nat → Bool) (pa : PA) : Prop where
  chunks : ChunksOk grown pa
  sums : ∀ level, level ≤ 4 → ∀ i,
    Exact (pageFree grown pa) (i * levelPages level) ((i + 1) * levelPages level) (pa.sum level i)

theorem levelPages_div (level : Nat) (h : level ≤ 4) : levelPages level = 512 * levelDiv level := by
  match level, h with
  | 0, _ => rfl
  | 1, _ => rfl
  | 2, _ => rfl
  | 3, _ => rfl
  | 4, _ => rfl

theorem Exact.shift {free free' : Nat → Bool} {d lo hi : Nat} {s : Summary} (h : Exact free lo hi s)
    (he : ∀ i, lo ≤ i → i < hi → free' (d + i) = free i) : Exact free' (d + lo) (d + hi) s := by
  obtain ⟨⟨a1, a2, a3⟩, ⟨b1, b2, b3⟩, ⟨c1, c2⟩⟩ := h
  have af : ∀ a k, lo ≤ a → a + k ≤ hi → (AllFree free' (d + a) k ↔ AllFree free a k) := by
    intro a k h1 h2
    constructor
    · intro hf i hi1 hi2
      rw [← he i (by omega) (by omega)]; exact hf _ (by omega) (by omega)
    · intro hf i hi1 hi2
      have := he (i - d) (by omega) (by omega)
      rw [show d + (i - d) = i by omega] at this
      rw [this]; exact hf _ (by omega) (by omega)
  refine ⟨⟨by omega, (af _ _ (Nat.le_refl _) a1).2 a2, fun h => ?_⟩,
    ⟨by omega, ?_, fun h => ?_⟩, ⟨?_, ?_⟩⟩
  · rw [Nat.add_assoc, he _ (by omega) (by omega)]; exact a3 (by omega)
  · rw [show d + hi - s.tail = d + (hi - s.tail) by omega]; exact (af _ _ (by omega) (by omega)).2 b2
  · rw [show d + hi - s.tail - 1 = d + (hi - s.tail - 1) by omega, he _ (by omega) (by omega)]; exact b3 (by omega)
  · obtain ⟨a, h1, h2, h3⟩ := c1
    exact ⟨d + a, by omega, by omega, (af _ _ h1 h2).2 h3⟩
  · rintro k ⟨a, h1, h2, h3⟩
    refine c2 k ⟨a - d, by omega, by omega, ?_⟩
    rw [← af _ _ (by omega) (by omega), show d + (a - d) = a by omega]; exact h3

/-- `setSum` at the written entry and elsewhere. -/
theorem setSum_same (s : Nat → Nat → Summary) (l i : Nat) (v : Summary) : setSum s l i v l i = v := by simp [setSum]
theorem setSum_other {s : Nat → Nat → Summary} {l i : Nat} {v : Summary} {l' j : Nat} (h : ¬ (l' = l ∧ j = i)) :
    setSum s l i v l' j = s l' j := by simp [setSum, h]

theorem updateLowest_spec {grown : Nat → Bool} {free : Nat → Bool} (k idx : Nat) (pa : PA) (hc : ChunksOk grown pa)
    (hfree : ∀ p, free p = pageFree grown pa p)
    (hg : ∀ c, idx ≤ c → c < idx + k → grown c = true) :
    ∃ pa', updateLowest pa k idx = .ok pa' ∧ pa'.chunks = pa.chunks ∧ (∀ l, l ≠ 4 → pa'.sum l = pa.sum l) ∧
      (∀ i, idx ≤ i → i < idx + k → Exact free (i * 512) ((i + 1) * 512) (pa'.sum 4 i)) ∧
      (∀ i, ¬ (idx ≤ i ∧ i < idx + k) → pa'.sum 4 i = pa.sum 4 i) := by
  induction k generalizing idx pa with
  | zero => exact ⟨pa, rfl, rfl, fun _ _ => rfl, fun i h1 h2 => by omega, fun _ _ => rfl⟩
  | succ k ih =>
    obtain ⟨ch, hch, hlen⟩ := hc.present idx (hg idx (Nat.le_refl _) (by omega))
    obtain ⟨s, hs, hex⟩ := chunkSummarize_spec ch hlen
    unfold updateLowest
    rw [hch]
    simp only [hs, Res.bind_ok]
    obtain ⟨pa', e, p1, p2, p3, p4⟩ := ih (idx + 1) { pa with sum := setSum pa.sum 4 idx s }
      ⟨hc.present, hc.fresh⟩ (fun p => by rw [hfree]; rfl) (fun c h1 h2 => hg c (by omega) (by omega))
    refine ⟨pa', e, p1, fun l hl => ?_, fun i h1 h2 => ?_, fun i hi => ?_⟩
    · rw [p2 l hl]; funext j; exact setSum_other (by omega)
    · by_cases hi : i = idx
      · subst hi
        rw [p4 i (by omega)]
        simp only [setSum_same]
        have := hex.shift (free' := free) (d := i * 512) (fun j h1 h2 => by
          rw [hfree, pageFree, show (i * 512 + j) / 512 = i by omega, show (i * 512 + j) % 512 = j by omega,
            hg i (Nat.le_refl _) (by omega), hch]
          rfl)
        rw [show (i + 1) * 512 = i * 512 + 512 by omega]
        simpa using this
      · exact p3 i (by omega) (by omega)
    · rw [p4 i (by omega)]; exact setSum_other (by omega)

theorem children_exact {free : Nat → Bool} {N : Nat} (sums : Nat → Summary) (lo m : Nat)
    (h : ∀ j, lo ≤ j → j < lo + m → Exact free (j * N) ((j + 1) * N) (sums j)) :
    ExactList free N (lo * N) ((List.range m).map fun j => sums (lo + j)) := by
  induction m with
  | zero => simp [ExactList]
  | succ m ih =>
    rw [List.range_succ, List.map_append, List.map_cons, List.map_nil, exactList_append]
    refine ⟨ih (fun j h1 h2 => h j h1 (by omega)), ?_⟩
    have := h (lo + m) (by omega) (by omega)
    simp only [List.length_map, List.length_range]
    rw [show lo * N + N * m = (lo + m) * N by rw [Nat.add_mul, Nat.mul_comm N m]]
    rw [show (lo + m) * N + N = (lo + m + 1) * N by rw [Nat.add_mul (lo + m) 1]; omega]
    exact this

theorem updateLevel_spec {free : Nat → Bool} {level : Nat} (hl : level < 4) (k i : Nat) (pa : PA)
    (hs : ∀ j, Exact free (j * levelPages (level + 1)) ((j + 1) * levelPages (level + 1)) (pa.sum (level + 1) j)) :
    ∃ pa', updateLevel pa level k i = .ok pa' ∧ pa'.chunks = pa.chunks ∧ (∀ l, l ≠ level → pa'.sum l = pa.sum l) ∧
      (∀ j, i ≤ j → j < i + k → Exact free (j * levelPages level) ((j + 1) * levelPages level) (pa'.sum level j)) ∧
      (∀ j, ¬ (i ≤ j ∧ j < i + k) → pa'.sum level j = pa.sum level j) := by
  induction k generalizing i pa with
  | zero => exact ⟨pa, rfl, rfl, fun _ _ => rfl, fun j h1 h2 => by omega, fun _ _ => rfl⟩
  | succ k ih =>
    have hN := levelPages_mul level hl
    have hch := children_exact (N := levelPages (level + 1)) (pa.sum (level + 1)) (i * 8) 8 (fun j _ _ => hs j)
    obtain ⟨s, e, hex⟩ := mergeSummarize_spec hl (childrenOf (pa.sum (level + 1)) i) (by simp [childrenOf, mergeCount]) hch
    unfold updateLevel
    simp only [e, Res.bind_ok]
    obtain ⟨pa', e', p1, p2, p3, p4⟩ := ih (i + 1) { pa with sum := setSum pa.sum level i s } (fun j => by
      show Exact _ _ _ (setSum pa.sum level i s (level + 1) j)
      rw [setSum_other (by omega)]; exact hs j)
    refine ⟨pa', e', p1, fun l hl => ?_, fun j h1 h2 => ?_, fun j hj => ?_⟩
    · rw [p2 l hl]; funext j; exact setSum_other (by omega)
    · by_cases hj : j = i
      · subst hj
        rw [p4 j (by omega)]
        simp only [setSum_same]
        have e1 : j * 8 * levelPages (level + 1) = j * levelPages level := by rw [← hN, Nat.mul_assoc, Nat.mul_comm 8]
        rw [e1] at hex
        rw [show (j + 1) * levelPages level = j * levelPages level + levelPages level by rw [Nat.add_mul]; omega]
        exact hex
      · exact p3 j (by omega) (by omega)
    · rw [p4 j (by omega)]; exact setSum_other (by omega)

/-- One level of the update: exact children everywhere, exact old entries outside the touched range. -/
theorem updateUpper_spec {free : Nat → Bool} {level lo hi : Nat} (hl : level < 4) (pa : PA)
    (hs : ∀ j, Exact free (j * levelPages (level + 1)) ((j + 1) * levelPages (level + 1)) (pa.sum (level + 1) j))
    (hold : ∀ j, ¬ (lo / levelDiv level ≤ j ∧ j ≤ hi / levelDiv level) →
      Exact free (j * levelPages level) ((j + 1) * levelPages level) (pa.sum level j)) :
    ∃ pa', updateUpper pa level lo hi = .ok pa' ∧ pa'.chunks = pa.chunks ∧ (∀ l, l ≠ level → pa'.sum l = pa.sum l) ∧
      (∀ j, Exact free (j * levelPages level) ((j + 1) * levelPages level) (pa'.sum level j)) := by
  obtain ⟨pa', e, p1, p2, p3, p4⟩ := updateLevel_spec hl (hi / levelDiv level + 1 - lo / levelDiv level)
    (lo / levelDiv level) pa hs
  refine ⟨pa', e, p1, p2, fun j => ?_⟩
  by_cases hj : lo / levelDiv level ≤ j ∧ j ≤ hi / levelDiv level
  · exact p3 j hj.1 (by omega)
  · rw [p4 j (by omega)]; exact hold j hj

theorem levelDiv_pos (level : Nat) : 0 < levelDiv level := by unfold levelDiv; split <;> omega

/-- `page_summary_update` restores exactness when only the pages of chunks `lo..hi` may have changed. -/
theorem summaryUpdate_spec {grown : Nat → Bool} {old : Nat → Bool} (pa : PA) (base size lo hi : Nat)
    (hlo : chunkIndex base = lo) (hhi : chunkIndex (base + size - 1) = hi) (hlh : lo ≤ hi)
    (hc : ChunksOk grown pa) (hg : ∀ c, lo ≤ c → c ≤ hi → grown c = true)
    (hold : ∀ level, level ≤ 4 → ∀ i, Exact old (i * levelPages level) ((i + 1) * levelPages level) (pa.sum level i))
    (hsame : ∀ p, ¬ (lo ≤ p / 512 ∧ p / 512 ≤ hi) → pageFree grown pa p = old p) :
    ∃ pa', summaryUpdate pa base size = .ok pa' ∧ pa'.chunks = pa.chunks ∧ Inv grown pa' := by
  -- entries outside the touched range stay exact
  have keep : ∀ level, level ≤ 4 → ∀ j, ¬ (lo / levelDiv level ≤ j ∧ j ≤ hi / levelDiv level) →
      Exact (pageFree grown pa) (j * levelPages level) ((j + 1) * levelPages level) (pa.sum level j) := by
    intro level hl j hj
    refine (hold level hl j).congr (fun p h1 h2 => hsame p ?_)
    intro ⟨q1, q2⟩
    apply hj
    rw [levelPages_div level hl] at h1 h2
    have hd := levelDiv_pos level
    have e1 : p / (512 * levelDiv level) = j := by
      apply Nat.div_eq_of_lt_le
      · exact h1
      · exact h2
    rw [← Nat.div_div_eq_div_mul] at e1
    constructor
    · rw [← e1]; exact Nat.div_le_div_right q1
    · rw [← e1]; exact Nat.div_le_div_right q2
  obtain ⟨pa4, e4, c4, o4, n4, r4⟩ := updateLowest_spec (free := pageFree grown pa) (hi + 1 - lo) lo pa hc (fun _ => rfl)
    (fun c h1 h2 => hg c h1 (by omega))
  have x4 : ∀ j, Exact (pageFree grown pa) (j * levelPages (3 + 1)) ((j + 1) * levelPages (3 + 1)) (pa4.sum (3 + 1) j) := by
    intro j
    by_cases hj : lo ≤ j ∧ j < lo + (hi + 1 - lo)
    · have := n4 j hj.1 hj.2
      simp only [levelPages]
      exact this
    · rw [show 3 + 1 = 4 from rfl, r4 j hj]
      exact keep 4 (by omega) j (by simp only [levelDiv, Nat.div_one]; omega)
  obtain ⟨pa3, e3, c3, o3, x3⟩ := updateUpper_spec (lo := lo) (hi := hi) (show 3 < 4 by omega) pa4 x4
    (fun j hj => by rw [o4 3 (by omega)]; exact keep 3 (by omega) j hj)
  obtain ⟨pa2, e2, c2, o2, x2⟩ := updateUpper_spec (lo := lo) (hi := hi) (show 2 < 4 by omega) pa3 x3
    (fun j hj => by rw [o3 2 (by omega), o4 2 (by omega)]; exact keep 2 (by omega) j hj)
  obtain ⟨pa1, e1, c1, o1, x1⟩ := updateUpper_spec (lo := lo) (hi := hi) (show 1 < 4 by omega) pa2 x2
    (fun j hj => by rw [o2 1 (by omega), o3 1 (by omega), o4 1 (by omega)]; exact keep 1 (by omega) j hj)
  obtain ⟨pa0, e0, c0, o0, x0⟩ := updateUpper_spec (lo := lo) (hi := hi) (show 0 < 4 by omega) pa1 x1
    (fun j hj => by rw [o1 0 (by omega), o2 0 (by omega), o3 0 (by omega), o4 0 (by omega)]; exact keep 0 (by omega) j hj)
  have hch : pa0.chunks = pa.chunks := by rw [c0, c1, c2, c3, c4]
  have hpf : pageFree grown pa0 = pageFree grown pa := by funext p; simp only [pageFree, hch]
  refine ⟨pa0, ?_, hch, ⟨⟨by rw [hch]; exact hc.present, by rw [hch]; exact hc.fresh⟩, ?_⟩⟩
  · unfold summaryUpdate
    rw [hlo, hhi]
    unfold summaryUpdateRange
    rw [e4, Res.bind_ok, e3, Res.bind_ok, e2, Res.bind_ok, e1, Res.bind_ok, e0]
  · rw [hpf]
    intro level hl i
    match level, hl with
    | 0, _ => exact x0 i
    | 1, _ => rw [o0 1 (by omega)]; exact x1 i
    | 2, _ => rw [o0 2 (by omega), o1 2 (by omega)]; exact x2 i
    | 3, _ => rw [o0 3 (by omega), o1 3 (by omega), o2 3 (by omega)]; exact x3 i
    | 4, _ => rw [o0 4 (by omega), o1 4 (by omega), o2 4 (by omega), o3 4 (by omega)]; exact x4 i

/-! ### chunks_set -/

theorem addr_eq (c b : Nat) : (Res.ok (chunkBase c + b * pageSize) = .ok (arenaBase + p * 8192)) ↔ p = c * 512 + b := by
  rw [Res.ok.injEq]; unfold chunkBase chunkBits pageSize; omega

theorem chunksSetLoop_spec (p n : Nat) (value : Bool) (hn : 0 < n) (k idx : Nat) (pa : PA)
    (hlo : p / 512 ≤ idx) (hk : idx + k = (p + n - 1) / 512 + 1)
    (hc : ∀ c, idx ≤ c → c < idx + k → ∃ ch, pa.chunks c = some ch ∧ ch.length = 8) :
    ∃ pa', chunksSetLoop (arenaBase + p * 8192) (arenaBase + p * 8192 + n * 8192) value pa k idx = .ok pa' ∧
      pa'.sum = pa.sum ∧
      (∀ c, ¬ (idx ≤ c ∧ c < idx + k) → pa'.chunks c = pa.chunks c) ∧
      (∀ c ch, idx ≤ c → c < idx + k → pa.chunks c = some ch → ∃ ch', pa'.chunks c = some ch' ∧ ch'.length = 8 ∧
        ∀ i, i < 512 → used ch' i = if p ≤ c * 512 + i ∧ c * 512 + i < p + n then value else used ch i) := by
  induction k generalizing idx pa with
  | zero => exact ⟨pa, rfl, rfl, fun _ _ => rfl, fun c ch h1 h2 => by omega⟩
  | succ k ih =>
    obtain ⟨ch, hch, hlen⟩ := hc idx (Nat.le_refl _) (by omega)
    unfold chunksSetLoop
    rw [hch]
    simp only
    -- evaluate the bit range
    have hidx : idx ≤ (p + n - 1) / 512 := by omega
    have hb1 : (if chunkBase idx < arenaBase + p * 8192 then (arenaBase + p * 8192 - chunkBase idx) / pageSize else 0) =
        p - idx * 512 := by
      unfold chunkBase chunkBits pageSize
      generalize arenaBase = A
      by_cases hx : idx * (512 * 8192) + A < A + p * 8192
      · rw [if_pos hx]; omega
      · rw [if_neg hx]; omega
    have hb2 : (arenaBase + p * 8192 + n * 8192 - chunkBase idx) / pageSize - 1 = p + n - idx * 512 - 1 := by
      simp only [chunkBase, chunkBits, pageSize, arenaBase]
      omega
    rw [hb1, hb2]
    have hb3 : (if p + n - idx * 512 - 1 > chunkBits - 1 then chunkBits - 1 else p + n - idx * 512 - 1) -
        (p - idx * 512) + 1 = min 512 (p + n - idx * 512) - (p - idx * 512) := by
      by_cases hx : p + n - idx * 512 - 1 > chunkBits - 1
      · rw [if_pos hx]; unfold chunkBits at hx ⊢; omega
      · rw [if_neg hx]; unfold chunkBits at hx; omega
    rw [hb3]
    have hrange : (p - idx * 512) + (min 512 (p + n - idx * 512) - (p - idx * 512)) ≤ 8 * (toBytes ch).length := by
      rw [toBytes_length, hlen]
      omega
    -- the bitmap operation
    have hop : ∃ bs, (if value = true then Bitmap.batchSet (toBytes ch) (p - idx * 512)
          (min 512 (p + n - idx * 512) - (p - idx * 512))
        else Bitmap.batchClear (toBytes ch) (p - idx * 512) (min 512 (p + n - idx * 512) - (p - idx * 512))) = some bs ∧
        bs.length = 64 ∧ ∀ i, i < 512 → Bitmap.bit bs i =
          some (if p ≤ idx * 512 + i ∧ idx * 512 + i < p + n then value else used ch i) := by
      have hcond : ∀ i, i < 512 → ((p - idx * 512 ≤ i ∧ i < p - idx * 512 +
          (min 512 (p + n - idx * 512) - (p - idx * 512))) ↔ (p ≤ idx * 512 + i ∧ idx * 512 + i < p + n)) := by
        intro i hi
        omega
      cases value with
      | true =>
        obtain ⟨bs, e, l, hp⟩ := Bitmap.batchSet_spec hrange
        refine ⟨bs, by simpa using e, by rw [l, toBytes_length, hlen], fun i hi => ?_⟩
        rw [hp i, bit_toBytes ch i (by omega)]
        simp only [hcond i hi, Option.map_some]
        split <;> rfl
      | false =>
        obtain ⟨bs, e, l, hp⟩ := Bitmap.batchClear_spec hrange
        refine ⟨bs, by simpa using e, by rw [l, toBytes_length, hlen], fun i hi => ?_⟩
        rw [hp i, bit_toBytes ch i (by omega)]
        simp only [hcond i hi, Option.map_some]
        split <;> rfl
    obtain ⟨bs, ebs, lbs, hbs⟩ := hop
    rw [ebs]
    simp only
    obtain ⟨pa', e', s', o', n'⟩ := ih (idx + 1)
      { pa with chunks := fun j => if j = idx then some (ofBytes ch.length bs) else pa.chunks j } (by omega) (by omega)
      (fun c h1 h2 => by
        obtain ⟨x, hx, hx8⟩ := hc c (by omega) (by omega)
        exact ⟨x, by simp only [show c ≠ idx by omega, if_false]; exact hx, hx8⟩)
    refine ⟨pa', e', s', fun c hcn => ?_, fun c x h1 h2 hx => ?_⟩
    · rw [o' c (by omega)]
      simp only [show c ≠ idx by omega, if_false]
    · by_cases hci : c = idx
      · subst hci
        rw [hch] at hx
        cases hx
        refine ⟨ofBytes ch.length bs, ?_, by rw [ofBytes_length]; exact hlen, fun i hi => ?_⟩
        · rw [o' c (by omega)]; simp
        · have h3 := used_ofBytes bs ch.length i (by omega) (by omega)
          rw [hbs i hi] at h3
          simp only [Option.some.injEq] at h3
          exact h3.symm
      · exact n' c x (by omega) (by omega) (by simp only [hci, if_false]; exact hx)

theorem chunkIndex_page (p : Nat) : chunkIndex (arenaBase + p * 8192) = p / 512 := by
  simp only [chunkIndex, chunkBits, pageSize, arenaBase]; omega

theorem chunkIndex_last (p n : Nat) (hn : 0 < n) : chunkIndex (arenaBase + p * 8192 + n * 8192 - 1) = (p + n - 1) / 512 := by
  simp only [chunkIndex, chunkBits, pageSize, arenaBase]; omega

theorem chunksSet_spec {grown : Nat → Bool} {pa : PA} (h : Inv grown pa) (p n : Nat) (value : Bool) (hn : 0 < n)
    (hg : ∀ c, p / 512 ≤ c → c ≤ (p + n - 1) / 512 → grown c = true) :
    ∃ pa', chunksSet pa (arenaBase + p * 8192) (n * 8192) value = .ok pa' ∧ Inv grown pa' ∧
      ∀ q, pageFree grown pa' q = if p ≤ q ∧ q < p + n then !value else pageFree grown pa q := by
  have hle : p / 512 ≤ (p + n - 1) / 512 := Nat.div_le_div_right (by omega)
  obtain ⟨pa1, e1, s1, o1, n1⟩ := chunksSetLoop_spec p n value hn ((p + n - 1) / 512 + 1 - p / 512) (p / 512) pa
    (Nat.le_refl _) (by omega) (fun c h1 h2 => h.chunks.present c (hg c h1 (by omega)))
  have hok : ChunksOk grown pa1 := by
    constructor
    · intro c hc
      by_cases hin : p / 512 ≤ c ∧ c < p / 512 + ((p + n - 1) / 512 + 1 - p / 512)
      · obtain ⟨ch, hch, _⟩ := h.chunks.present c hc
        obtain ⟨ch', e', l', _⟩ := n1 c ch hin.1 hin.2 hch
        exact ⟨ch', e', l'⟩
      · rw [o1 c hin]; exact h.chunks.present c hc
    · intro c hc ch hch
      have : ¬ (p / 512 ≤ c ∧ c < p / 512 + ((p + n - 1) / 512 + 1 - p / 512)) := by
        intro hin
        rw [hg c hin.1 (by omega)] at hc; cases hc
      rw [o1 c this] at hch
      exact h.chunks.fresh c hc ch hch
  have hpf : ∀ q, pageFree grown pa1 q = if p ≤ q ∧ q < p + n then !value else pageFree grown pa q := by
    intro q
    simp only [pageFree]
    by_cases hin : p / 512 ≤ q / 512 ∧ q / 512 < p / 512 + ((p + n - 1) / 512 + 1 - p / 512)
    · have hgq := hg (q / 512) hin.1 (by omega)
      obtain ⟨ch, hch, hl⟩ := h.chunks.present _ hgq
      obtain ⟨ch', e', l', hu⟩ := n1 _ ch hin.1 hin.2 hch
      rw [e', hch, hgq]
      simp only [Bool.true_and]
      rw [hu (q % 512) (by omega)]
      have : q / 512 * 512 + q % 512 = q := by omega
      rw [this]
      split <;> rfl
    · rw [o1 _ hin, if_neg (by omega)]
  obtain ⟨pa', e', c', i'⟩ := summaryUpdate_spec (grown := grown) (old := pageFree grown pa) pa1 (arenaBase + p * 8192) (n * 8192)
    (p / 512) ((p + n - 1) / 512) (chunkIndex_page p) (chunkIndex_last p n hn) hle hok hg
    (by rw [s1]; exact h.sums) (fun q hq => by rw [hpf q, if_neg (by omega)])
  refine ⟨pa', ?_, i', fun q => ?_⟩
  · unfold chunksSet
    rw [chunkIndex_page, chunkIndex_last p n hn, e1, Res.bind_ok, e']
  · rw [← hpf q]; simp only [pageFree, c']

/-! ### page_alloc_find -/

theorem descend_spec {grown : Nat → Bool} {pa : PA} (h : Inv grown pa) {n : Nat} (hn : 0 < n) (k level st fin : Nat)
    (hk : level + k = 5) (hl : level < 5) (hle : st ≤ fin) :
    (HasRun (pageFree grown pa) (st * levelPages level) (fin * levelPages level) n →
      ∃ s e, descend pa n k level st fin = .ok (some (s, e)) ∧ s ≤ e ∧
        (e + 1) * 512 ≤ fin * levelPages level ∧
        HasRun (pageFree grown pa) (s * 512) ((e + 1) * 512) n ∧
        (s < e → AllFree (pageFree grown pa) ((s + 1) * 512 - (pa.sum 4 s).tail) n ∧
          (s + 1) * 512 - (pa.sum 4 s).tail + n ≤ (e + 1) * 512 ∧
          (pa.sum 4 s).tail ≤ 512 ∧ 0 < (pa.sum 4 s).tail)) ∧
    (level = 0 → ¬ HasRun (pageFree grown pa) (st * levelPages level) (fin * levelPages level) n →
      descend pa n k level st fin = .ok none) := by
  induction k generalizing level st fin with
  | zero => omega
  | succ k ih =>
    have hf := summaryFind_spec (free := pageFree grown pa) (level := level) hn (pa.sum level) st fin hle
      (fun i _ _ => h.sums level (by omega) i)
    unfold descend
    simp only
    cases hr : summaryFind level (pa.sum level) st fin n with
    | mk found rest =>
      obtain ⟨fs, fe⟩ := rest
      rw [hr] at hf
      cases found with
      | false =>
        simp only at hf
        refine ⟨fun hh => absurd hh hf, fun hl0 _ => ?_⟩
        simp [hl0]
      | true =>
        simp only at hf
        have hub : (fe + 1) * levelPages level ≤ fin * levelPages level := Nat.mul_le_mul_right _ hf.ub
        have hlb : st * levelPages level ≤ fs * levelPages level := Nat.mul_le_mul_right _ hf.lb
        refine ⟨fun _ => ?_, fun _ hno => absurd (hf.run.mono hlb hub) hno⟩
        simp only [if_true]
        by_cases h4 : level < 4
        · rw [if_pos h4]
          have hN := levelPages_mul level h4
          have e1 : ∀ x, x * 8 * levelPages (level + 1) = x * levelPages level := fun x => by
            rw [← hN, Nat.mul_assoc, Nat.mul_comm 8]
          have := (ih (level + 1) (fs * mergeCount) ((fe + 1) * mergeCount) (by omega) (by omega)
            (by have := hf.le; simp only [mergeCount]; omega)).1
            (by simp only [mergeCount]; rw [e1, e1]; exact hf.run)
          obtain ⟨s, e, q1, q2, q3, q4⟩ := this
          simp only [mergeCount] at q1 q3 ⊢
          rw [e1] at q3
          exact ⟨s, e, q1, q2, by omega, q4⟩
        · have : level = 4 := by omega
          subst this
          have : k = 0 := by omega
          subst this
          rw [if_neg h4]
          unfold descend
          exact ⟨fs, fe, rfl, hf.le, hub, hf.run, hf.cross⟩

theorem pages_le (s r n : Nat) (h : r + n ≤ 512) : s * 512 + r + n ≤ (s + 1) * 512 := by omega

theorem locate_spec {grown : Nat → Bool} {pa : PA} (h : Inv grown pa) {n : Nat} (hn : 0 < n) {s e : Nat} (hse : s ≤ e)
    (hrun : HasRun (pageFree grown pa) (s * 512) ((e + 1) * 512) n)
    (hcross : s < e → AllFree (pageFree grown pa) ((s + 1) * 512 - (pa.sum 4 s).tail) n ∧
          (s + 1) * 512 - (pa.sum 4 s).tail + n ≤ (e + 1) * 512 ∧
          (pa.sum 4 s).tail ≤ 512 ∧ 0 < (pa.sum 4 s).tail) :
    ∃ p, locate pa n s e = .ok (arenaBase + p * 8192) ∧ p + n ≤ (e + 1) * 512 ∧ AllFree (pageFree grown pa) p n := by
  unfold locate
  by_cases he : s = e
  · subst he
    rw [if_pos rfl]
    obtain ⟨a, a1, a2, a3⟩ := hrun
    -- the chunk is grown, since it has a free page
    have hfree := a3 a (Nat.le_refl _) (by omega)
    have has : a / 512 = s := by omega
    have hg : grown s = true := by
      simp only [pageFree, has, Bool.and_eq_true] at hfree; exact hfree.1
    obtain ⟨ch, hch, hlen⟩ := h.chunks.present s hg
    rw [hch]
    simp only
    have hview : ∀ i, i < 512 → pageFree grown pa (s * 512 + i) = chunkFree ch i := by
      intro i hi
      simp only [pageFree, show (s * 512 + i) / 512 = s by omega, show (s * 512 + i) % 512 = i by omega, hg, hch,
        Bool.true_and, chunkFree]
    have hf := chunkFind_spec ch hlen n hn
    cases hr : chunkFind ch n with
    | none =>
      rw [hr] at hf
      simp only at hf
      exfalso; apply hf
      refine ⟨a - s * 512, by omega, by omega, fun i h1 h2 => ?_⟩
      rw [← hview i (by omega)]; exact a3 _ (by omega) (by omega)
    | some r =>
      rw [hr] at hf
      have f1 : r + n ≤ 512 := hf.1
      have f2 := hf.2.1
      clear hf hr
      have hb : s * 512 + r + n ≤ (s + 1) * 512 := pages_le s r n f1
      refine ⟨s * 512 + r, ?_, hb, fun i h1 h2 => ?_⟩
      · rw [Option.getD_some, addr_eq]
      · have := hview (i - s * 512) (by omega)
        rw [show s * 512 + (i - s * 512) = i by omega] at this
        rw [this]; exact f2 _ (by omega) (by omega)
  · rw [if_neg he]
    obtain ⟨c1, c2, c3, c4⟩ := hcross (by omega)
    refine ⟨(s + 1) * 512 - (pa.sum 4 s).tail, ?_, c2, c1⟩
    rw [addr_eq]; simp only [chunkBits]; omega

/-- `page_alloc_find`: complete and sound within the searched part of the heap. -/
theorem pageAllocFind_spec {grown : Nat → Bool} {pa : PA} (h : Inv grown pa) {n hint : Nat} (hn : 0 < n)
    (hh : arenaBase ≤ hint) (must : Bool) :
    (¬ HasRun (pageFree grown pa) 0 (searchEnd hint * 2097152) n →
      pageAllocFind pa hint n must = if must then .abort else .ok (none, pa)) ∧
    (HasRun (pageFree grown pa) 0 (searchEnd hint * 2097152) n →
      ∃ p pa', pageAllocFind pa hint n must = .ok (some (arenaBase + p * 8192), pa') ∧
        p + n ≤ searchEnd hint * 2097152 ∧ AllFree (pageFree grown pa) p n ∧ Inv grown pa' ∧
        ∀ q, pageFree grown pa' q = if p ≤ q ∧ q < p + n then false else pageFree grown pa q) := by
  have hd := descend_spec h hn 5 0 0 (searchEnd hint) (by omega) (by omega) (by omega)
  rw [show levelPages 0 = 2097152 from rfl, Nat.zero_mul] at hd
  unfold pageAllocFind
  rw [if_neg (by omega)]
  constructor
  · intro hno
    rw [hd.2 rfl hno]
    rfl
  · intro hrun
    obtain ⟨s, e, q1, q2, q3, q4, q5⟩ := hd.1 hrun
    obtain ⟨p, e1, e2, e3⟩ := locate_spec h hn q2 q4 q5
    rw [q1]
    simp only [Res.bind_ok, e1]
    rw [if_pos (by simp only [pageSize, arenaBase]; omega)]
    have hgr : ∀ c, p / 512 ≤ c → c ≤ (p + n - 1) / 512 → grown c = true := by
      intro c h1 h2
      -- some page of chunk c lies in the run
      have : ∃ i, p ≤ i ∧ i < p + n ∧ i / 512 = c := by
        by_cases hc : p ≤ c * 512
        · exact ⟨c * 512, hc, by omega, by omega⟩
        · exact ⟨p, Nat.le_refl _, by omega, by omega⟩
      obtain ⟨i, i1, i2, i3⟩ := this
      have := e3 i i1 i2
      simp only [pageFree, i3, Bool.and_eq_true] at this
      exact this.1
    obtain ⟨pa', e4, e5, e6⟩ := chunksSet_spec h p n true hn hgr
    refine ⟨p, pa', ?_, Nat.le_trans e2 q3, e3, e5, fun q => by rw [e6 q]; rfl⟩
    rw [show pageSize = 8192 from rfl, e4, Res.bind_ok]

end Nature.PageAlloc
