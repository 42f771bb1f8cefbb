import Verif.FixAlloc.Lemmas
/-!
C07: the fixed-size allocator hands out disjoint blocks.

A history (`run`) starts from a fresh allocator and consists of allocations (the OS answering with any fresh
region it likes), frees of held blocks and writes of any byte to any held block.
-/
namespace Nature.FixAlloc

/-- C07, for block sizes up to half a chunk (8192 bytes).  After every history: the held blocks are pairwise
disjoint, each lies inside memory obtained from the OS, past the allocator's own header, none is also on the
free list, and the in-use byte count is that of the held blocks.
Missing for the full property: block sizes above 8192, for which it is false (`C07_counterexample`). -/
theorem C07_partial (fixSize : Nat) (hs : fixSize ≤ 8192) (m : Mem) :
    ∃ w, init fixSize m = some w ∧ ∀ ops s, run ⟨w, [], []⟩ ops = some s →
      s.live.Pairwise (Disj (blockSize fixSize)) ∧
      (∀ b ∈ s.live, ∃ r ∈ s.w.regions, r + 8 ≤ b ∧ b + blockSize fixSize ≤ r + s.w.fa.chunkSize) ∧
      (∀ b ∈ s.live, ∀ f ∈ s.freed, Disj (blockSize fixSize) b f) ∧
      s.w.fa.inuse = s.live.length * blockSize fixSize := by
  obtain ⟨w, hw, hsz, hi⟩ := init_inv (m := m) hs
  refine ⟨w, hw, fun ops s hr => ?_⟩
  have hinv := run_inv hi hr
  have hsz' : s.w.fa.size = blockSize fixSize := by rw [run_size hr]; exact hsz
  have hd := hinv.disj
  rw [hsz'] at hd
  refine ⟨(List.pairwise_append.mp hd).1, fun b hb => ?_, fun b hb f hf => append_disj hd hb hf, ?_⟩
  · obtain ⟨r, hr, h1, h2⟩ := hinv.inside b (List.mem_append_left _ hb)
    exact ⟨r, hr, h1, by omega⟩
  · rw [hinv.inuse, hsz']

/-- C07: freeing lets exactly that block be reused.  After every history with a block freed and not handed out
again, the next allocation returns the most recently freed one and asks the OS for nothing; when nothing is
waiting for reuse the allocation returns a block disjoint from every block of the history. -/
theorem C07_reuse_partial (fixSize : Nat) (hs : fixSize ≤ 8192) (m : Mem) :
    ∃ w, init fixSize m = some w ∧ ∀ ops s os, run ⟨w, [], []⟩ ops = some s →
      OsOk s.w.fa.chunkSize s.w.regions os →
      (∀ p rest, s.freed = p :: rest → (alloc s.w os).1 = p ∧ (alloc s.w os).2.regions = s.w.regions) ∧
      (s.freed = [] → ∀ b ∈ s.live, Disj (blockSize fixSize) (alloc s.w os).1 b) := by
  obtain ⟨w, hw, hsz, hi⟩ := init_inv (m := m) hs
  refine ⟨w, hw, fun ops s os hr hos => ?_⟩
  have hinv := run_inv hi hr
  have hsz' : s.w.fa.size = blockSize fixSize := by rw [run_size hr]; exact hsz
  refine ⟨fun p rest hf => ⟨(alloc_free_inv hinv hf os).1, ?_⟩, fun hf b hb => ?_⟩
  · have hch := hinv.chain
    rw [hf] at hch
    obtain ⟨e, h0, _, _⟩ := hch
    rw [alloc, if_pos (by rw [e]; exact h0)]
  · have ha := (alloc_inv hinv hos).disj
    rw [alloc_size, hsz', List.cons_append, List.pairwise_cons] at ha
    exact ha.1 b (List.mem_append_left _ hb)

/-- C07: every block is handed out zeroed, whatever it held before it was freed. -/
theorem C07_zeroed (w : World) (os x : Nat) (h1 : (alloc w os).1 ≤ x) (h2 : x < (alloc w os).1 + w.fa.size) :
    (alloc w os).2.mem x = 0#8 := by
  rw [alloc] at *
  split
  · rename_i hne
    rw [if_pos hne] at h1 h2
    simp only [zero]; rw [if_pos ⟨h1, h2⟩]
  · rename_i hne
    rw [if_neg hne] at h1 h2
    have hsz : (refill w os).fa.size = w.fa.size := by rw [refill]; split <;> rfl
    simp only [carve, zero] at *
    rw [hsz, if_pos ⟨h1, h2⟩]

/-- C07: allocating and freeing other blocks never changes a byte of a held block. -/
theorem C07_contents_partial (fixSize : Nat) (hs : fixSize ≤ 8192) (m : Mem) :
    ∃ w, init fixSize m = some w ∧ ∀ ops s, run ⟨w, [], []⟩ ops = some s →
      (∀ os, OsOk s.w.fa.chunkSize s.w.regions os → ∀ b ∈ s.live, ∀ x, b ≤ x → x < b + blockSize fixSize →
        (alloc s.w os).2.mem x = s.w.mem x) ∧
      (∀ p ∈ s.live, ∀ b ∈ s.live.erase p, ∀ x, b ≤ x → x < b + blockSize fixSize →
        (free s.w p).mem x = s.w.mem x) := by
  obtain ⟨w, hw, hsz, hi⟩ := init_inv (m := m) hs
  refine ⟨w, hw, fun ops s hr => ?_⟩
  have hinv := run_inv hi hr
  have hsz' : s.w.fa.size = blockSize fixSize := by rw [run_size hr]; exact hsz
  have h8 := hinv.size8
  refine ⟨fun os hos b hb x h1 h2 => ?_, fun p hp b hb x h1 h2 => ?_⟩
  · have ha := (alloc_inv hinv hos).disj
    rw [alloc_size, hsz', List.cons_append, List.pairwise_cons] at ha
    have hd := ha.1 b (List.mem_append_left _ hb)
    rw [alloc] at hd ⊢
    split
    · rename_i hne
      rw [if_pos hne] at hd
      unfold Disj at hd
      exact zero_other (by rw [hsz']; simp only at hd; omega)
    · rename_i hne
      rw [if_neg hne] at hd
      obtain ⟨_, _, h3, h4⟩ := refill_inv hinv hos
      unfold Disj at hd
      simp only [carve] at hd ⊢
      rw [zero_other (by rw [h3, hsz']; omega)]
      exact h4 b hb x h1 (by omega)
  · have hd := (free_inv hinv hp).disj
    have := append_disj hd hb (List.mem_cons_self)
    have hfs : (free s.w p).fa.size = blockSize fixSize := hsz'
    simp only [hfs] at this
    unfold Disj at this
    simp only [free]
    exact store64_other (by omega)

/-- C07: destroying the allocator returns to the OS every region it obtained, each exactly once. -/
theorem C07_destroy_partial (fixSize : Nat) (hs : fixSize ≤ 8192) (m : Mem) :
    ∃ w, init fixSize m = some w ∧ ∀ ops s, run ⟨w, [], []⟩ ops = some s →
      ∀ fuel, s.w.regions.length < fuel → destroy s.w.mem fuel s.w.fa.chunkList = some s.w.regions := by
  obtain ⟨w, hw, _, hi⟩ := init_inv (m := m) hs
  exact ⟨w, hw, fun ops s hr fuel hf => destroy_chain (run_inv hi hr).chunks hf⟩

/-- C07 fails for every block size above half a chunk: already the first block handed out reaches past the end
of the region obtained from the OS, because the eight byte chunk header leaves less than one block. -/
theorem C07_counterexample (fixSize : Nat) (h1 : 8192 < fixSize) (h2 : fixSize ≤ 16384) (m : Mem) (os : Nat)
    (ho : os ≠ 0) (hf : os + fixSize ≤ 2 ^ 64) :
    ∃ w s, init fixSize m = some w ∧ run ⟨w, [], []⟩ [.alloc os] = some s ∧
      s.live = [os + 8] ∧ s.w.regions = [os] ∧ s.w.fa.chunkSize = fixSize ∧ ¬ InOs s (os + 8) := by
  have hd : chunkLimit / fixSize = 1 := by
    simp only [chunkLimit]
    exact Nat.div_eq_of_lt_le (by omega) (by omega)
  have hc : (chunkLimit / fixSize * fixSize) % 2 ^ 32 = fixSize := by rw [hd]; omega
  have hok : OsOk fixSize [] os := ⟨ho, hf, by simp⟩
  have hin : init fixSize m = some ⟨⟨fixSize, 0, 0, 0, fixSize, 0, 0⟩, m, []⟩ := by
    have : ¬ fixSize < 8 := by omega
    rw [init, if_pos (by simp only [chunkLimit]; omega)]
    simp only [if_neg this, hc]
  refine ⟨_, ⟨(alloc ⟨⟨fixSize, 0, 0, 0, fixSize, 0, 0⟩, m, []⟩ os).2,
      [(alloc ⟨⟨fixSize, 0, 0, 0, fixSize, 0, 0⟩, m, []⟩ os).1], []⟩, hin, ?_, ?_, ?_, ?_, ?_⟩
  · simp only [run, step]
    rw [if_pos hok]
    rfl
  all_goals
    have hlt : 0 < fixSize := by omega
    simp only [alloc, carve, refill, hlt, ne_eq, not_true_eq_false, if_false, if_true, InOs,
      List.mem_cons, List.not_mem_nil, or_false]
  rintro ⟨r, rfl, ha, hb⟩
  omega

/-- C07 fails beyond rounding to pages: with blocks of 8200 bytes the second block ends past the third and last
4096-byte page of the only region obtained from the OS, so clearing it writes to unmapped or foreign memory. -/
theorem C07_pages_counterexample : ∃ w s, init 8200 (fun _ => 0#8) = some w ∧
    run ⟨w, [], []⟩ [.alloc 65536, .alloc 1048576] = some s ∧
    s.w.regions = [65536] ∧ s.live = [65536 + 8208, 65536 + 8] ∧ s.w.fa.chunkSize = 8200 ∧
    65536 + 12288 < 65536 + 8208 + s.w.fa.size := by
  refine ⟨_, _, rfl, rfl, ?_, ?_, ?_, ?_⟩ <;> decide

/-! ### Concrete cases -/

/-- A non-trivial history permitted by the hypotheses: two blocks of 48 bytes, a write to the first, a free and
a reuse, which returns the freed block. -/
example : ∃ w s, init 48 (fun _ => 0#8) = some w ∧
    run ⟨w, [], []⟩ [.alloc 65536, .alloc 1048576, .write 65550 7#8, .free 65544, .alloc 1048576] = some s ∧
    s.live = [65544, 65592] ∧ s.freed = [] ∧ s.w.regions = [65536] := by
  refine ⟨_, _, rfl, rfl, ?_, ?_, ?_⟩ <;> decide

end Nature.FixAlloc
