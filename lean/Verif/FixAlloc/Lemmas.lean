import Verif.FixAlloc.Spec
namespace Nature.FixAlloc

theorem load64_congr {m m' : Mem} {a : Nat} (h : ∀ x, a ≤ x → x < a + 8 → m' x = m x) :
    load64 m' a = load64 m a := by
  simp only [load64]
  rw [h a (by omega) (by omega), h (a + 1) (by omega) (by omega), h (a + 2) (by omega) (by omega),
    h (a + 3) (by omega) (by omega), h (a + 4) (by omega) (by omega), h (a + 5) (by omega) (by omega),
    h (a + 6) (by omega) (by omega), h (a + 7) (by omega) (by omega)]

theorem store64_at (m : Mem) (a v i : Nat) (h : i < 8) :
    (store64 m a v (a + i)).toNat = v / 256 ^ i % 256 := by
  simp only [store64]
  rw [if_pos (by omega), BitVec.toNat_ofNat]
  have : a + i - a = i := by omega
  rw [this]

theorem load64_store64 {m : Mem} {a v : Nat} (h : v < 2 ^ 64) : load64 (store64 m a v) a = v := by
  have h0 := store64_at m a v 0 (by omega)
  simp only [Nat.add_zero] at h0
  simp only [load64, h0, store64_at m a v 1 (by omega), store64_at m a v 2 (by omega),
    store64_at m a v 3 (by omega), store64_at m a v 4 (by omega), store64_at m a v 5 (by omega),
    store64_at m a v 6 (by omega), store64_at m a v 7 (by omega)]
  omega

theorem store64_other {m : Mem} {a v x : Nat} (h : ¬ (a ≤ x ∧ x < a + 8)) : store64 m a v x = m x := by
  simp only [store64]; rw [if_neg h]

theorem zero_other {m : Mem} {a n x : Nat} (h : ¬ (a ≤ x ∧ x < a + n)) : zero m a n x = m x := by
  simp only [zero]; rw [if_neg h]

theorem load64_zero {m : Mem} {a n : Nat} (h : 8 ≤ n) : load64 (zero m a n) a = 0 := by
  simp only [load64, zero]
  rw [if_pos (by omega), if_pos (by omega), if_pos (by omega), if_pos (by omega), if_pos (by omega),
    if_pos (by omega), if_pos (by omega), if_pos (by omega)]
  rfl

/-- The linked list in memory starting at `a` consists of exactly `ps`. -/
def Chain (m : Mem) : Nat → List Nat → Prop
  | a, [] => a = 0
  | a, p :: ps => a = p ∧ p ≠ 0 ∧ p < 2 ^ 64 ∧ Chain m (load64 m p) ps

theorem Chain.lt {m : Mem} {a : Nat} {ps : List Nat} (h : Chain m a ps) : a < 2 ^ 64 := by
  cases ps with
  | nil => simp only [Chain] at h; omega
  | cons p ps => simp only [Chain] at h; omega

theorem Chain.congr {m m' : Mem} : ∀ {ps : List Nat} {a : Nat}, Chain m a ps →
    (∀ p ∈ ps, ∀ x, p ≤ x → x < p + 8 → m' x = m x) → Chain m' a ps
  | [], a, h, _ => h
  | p :: ps, a, h, hf => by
    refine ⟨h.1, h.2.1, h.2.2.1, ?_⟩
    rw [load64_congr (hf p (List.mem_cons_self))]
    exact h.2.2.2.congr fun q hq => hf q (List.mem_cons_of_mem _ hq)

theorem destroy_chain {m : Mem} : ∀ {ps : List Nat} {a fuel : Nat}, Chain m a ps → ps.length < fuel →
    destroy m fuel a = some ps
  | [], a, fuel, h, hf => by
    obtain ⟨n, rfl⟩ : ∃ n, fuel = n + 1 := ⟨fuel - 1, by omega⟩
    have : a = 0 := h
    rw [destroy, if_pos this]
  | p :: ps, a, fuel, h, hf => by
    simp only [List.length_cons] at hf
    obtain ⟨n, rfl⟩ : ∃ n, fuel = n + 1 := ⟨fuel - 1, by omega⟩
    obtain ⟨rfl, h0, _, hc⟩ := h
    rw [destroy, if_neg h0, destroy_chain hc (by omega)]; rfl

theorem Disj.symm {n a b : Nat} (h : Disj n a b) : Disj n b a := by unfold Disj at *; omega

/-- The invariant of every history of an allocator for blocks of at most half a chunk. -/
structure Inv (s : St) : Prop where
  size8 : 8 ≤ s.w.fa.size
  chunk : 2 * s.w.fa.size ≤ s.w.fa.chunkSize
  limit : s.w.fa.chunkSize ≤ chunkLimit
  chain : Chain s.w.mem s.w.fa.freeList s.freed
  chunks : Chain s.w.mem s.w.fa.chunkList s.w.regions
  disj : (s.live ++ s.freed).Pairwise (Disj s.w.fa.size)
  inside : ∀ b ∈ s.live ++ s.freed, ∃ r ∈ s.w.regions, r + 8 ≤ b ∧ b + s.w.fa.size ≤ r + s.w.fa.chunkSize
  regs : s.w.regions.Pairwise (Disj s.w.fa.chunkSize)
  fits : ∀ r ∈ s.w.regions, r + s.w.fa.chunkSize ≤ 2 ^ 64
  bump : s.w.fa.chunkRem = 0 ∨ ∃ r ∈ s.w.regions, r + 8 ≤ s.w.fa.chunkPtr ∧
    s.w.fa.chunkPtr + s.w.fa.chunkRem ≤ r + s.w.fa.chunkSize
  clear : ∀ b ∈ s.live ++ s.freed, b + s.w.fa.size ≤ s.w.fa.chunkPtr ∨ s.w.fa.chunkPtr + s.w.fa.chunkRem ≤ b
  inuse : s.w.fa.inuse = s.live.length * s.w.fa.size

theorem chunkSize_ge {n : Nat} (h8 : 8 ≤ n) (hn : n ≤ 8192) :
    2 * n ≤ (chunkLimit / n * n) % 2 ^ 32 ∧ (chunkLimit / n * n) % 2 ^ 32 ≤ chunkLimit := by
  have h1 : chunkLimit / n * n ≤ chunkLimit := Nat.div_mul_le_self _ _
  have h2 : 2 ≤ chunkLimit / n := (Nat.le_div_iff_mul_le (by omega)).mpr (by simp only [chunkLimit]; omega)
  have h3 : 2 * n ≤ chunkLimit / n * n := Nat.mul_le_mul_right _ h2
  rw [Nat.mod_eq_of_lt (by simp only [chunkLimit] at *; omega)]
  exact ⟨h3, h1⟩

theorem init_inv {fixSize : Nat} {m : Mem} (h : fixSize ≤ 8192) :
    ∃ w, init fixSize m = some w ∧ w.fa.size = blockSize fixSize ∧ Inv ⟨w, [], []⟩ := by
  have hs : (if fixSize < 8 then 8 else fixSize) = blockSize fixSize := by
    unfold blockSize; split <;> omega
  have hb : 8 ≤ blockSize fixSize ∧ blockSize fixSize ≤ 8192 := by unfold blockSize; omega
  have hc := chunkSize_ge hb.1 hb.2
  refine ⟨_, by rw [init, if_pos (by simp only [chunkLimit]; omega)], by simp only [hs], ?_⟩
  simp only [hs]
  exact ⟨hb.1, hc.1, hc.2, rfl, rfl, List.Pairwise.nil, by simp, List.Pairwise.nil, by simp, Or.inl rfl,
    by simp, by simp⟩

/-- Two regions of a list of pairwise disjoint regions are equal or disjoint. -/
theorem pair_disj {n : Nat} : ∀ {l : List Nat}, l.Pairwise (Disj n) → ∀ {a b : Nat}, a ∈ l → b ∈ l → a = b ∨ Disj n a b
  | [], _, a, b, ha, _ => by simp at ha
  | x :: l, h, a, b, ha, hb => by
    rw [List.pairwise_cons] at h
    rcases List.mem_cons.mp ha with rfl | ha'
    · rcases List.mem_cons.mp hb with rfl | hb'
      · exact Or.inl rfl
      · exact Or.inr (h.1 b hb')
    · rcases List.mem_cons.mp hb with rfl | hb'
      · exact Or.inr (h.1 a ha').symm
      · exact pair_disj h.2 ha' hb'

/-- The header of a region meets no block. -/
theorem header_disj {s : St} (hi : Inv s) {r b x : Nat} (hr : r ∈ s.w.regions) (hb : b ∈ s.live ++ s.freed)
    (h1 : r ≤ x) (h2 : x < r + 8) : ¬ (b ≤ x ∧ x < b + s.w.fa.size) := by
  obtain ⟨r', hr', h3, h4⟩ := hi.inside b hb
  have hc := hi.chunk
  have h8 := hi.size8
  rcases pair_disj hi.regs hr hr' with e | d
  · omega
  · unfold Disj at d; omega

theorem append_disj {n : Nat} {l1 l2 : List Nat} (h : (l1 ++ l2).Pairwise (Disj n)) {a b : Nat}
    (ha : a ∈ l1) (hb : b ∈ l2) : Disj n a b := (List.pairwise_append.mp h).2.2 a ha b hb

theorem nz_of_mem {m : Mem} : ∀ {ps : List Nat} {a : Nat}, Chain m a ps → ∀ p ∈ ps, p ≠ 0 ∧ p < 2 ^ 64
  | [], _, _, p, hp => by simp at hp
  | q :: ps, a, h, p, hp => by
    rcases List.mem_cons.mp hp with rfl | hp'
    · exact ⟨h.2.1, h.2.2.1⟩
    · exact nz_of_mem h.2.2.2 p hp'

/-- Same allocator metadata and same relevant memory: client writes. -/
theorem write_inv {s : St} (hi : Inv s) {a : Nat} {v : BitVec 8} {b : Nat} (hb : b ∈ s.live) (h1 : b ≤ a)
    (h2 : a < b + s.w.fa.size) :
    Inv ⟨{ s.w with mem := fun x => if x = a then v else s.w.mem x }, s.live, s.freed⟩ := by
  refine ⟨hi.size8, hi.chunk, hi.limit, ?_, ?_, hi.disj, hi.inside, hi.regs, hi.fits, hi.bump, hi.clear, hi.inuse⟩
  · apply hi.chain.congr
    intro p hp x hx1 hx2
    have := append_disj hi.disj hb hp
    have h8 := hi.size8
    unfold Disj at this
    simp only
    rw [if_neg (by omega)]
  · apply hi.chunks.congr
    intro r hr x hx1 hx2
    have := header_disj hi hr (List.mem_append_left _ hb) hx1 hx2
    simp only
    rw [if_neg]
    intro e; subst e; exact this ⟨h1, h2⟩

theorem pairwise_erase_move {n : Nat} {live freed : List Nat} {p : Nat} (hp : p ∈ live)
    (h : (live ++ freed).Pairwise (Disj n)) : (live.erase p ++ p :: freed).Pairwise (Disj n) := by
  have hperm : List.Perm (live.erase p ++ p :: freed) (live ++ freed) := by
    refine List.Perm.trans List.perm_middle ?_
    rw [← List.cons_append]
    exact List.Perm.append_right _ (List.perm_cons_erase hp).symm
  exact (hperm.symm.pairwise_iff (fun h => h.symm)).mp h

theorem mem_erase_move {live freed : List Nat} {p b : Nat} (hp : p ∈ live) :
    b ∈ live.erase p ++ p :: freed ↔ b ∈ live ++ freed := by
  have hperm : List.Perm (live.erase p ++ p :: freed) (live ++ freed) := by
    refine List.Perm.trans List.perm_middle ?_
    rw [← List.cons_append]
    exact List.Perm.append_right _ (List.perm_cons_erase hp).symm
  exact hperm.mem_iff

theorem free_inv {s : St} (hi : Inv s) {p : Nat} (hp : p ∈ s.live) :
    Inv ⟨free s.w p, s.live.erase p, p :: s.freed⟩ := by
  have hpm : p ∈ s.live ++ s.freed := List.mem_append_left _ hp
  obtain ⟨r, hr, hr1, hr2⟩ := hi.inside p hpm
  have h8 := hi.size8
  have hfit := hi.fits r hr
  refine ⟨hi.size8, hi.chunk, hi.limit, ?_, ?_, pairwise_erase_move hp hi.disj, ?_, hi.regs, hi.fits, hi.bump, ?_, ?_⟩
  · refine ⟨rfl, by omega, by omega, ?_⟩
    simp only [free]
    rw [load64_store64 hi.chain.lt]
    apply hi.chain.congr
    intro q hq x hx1 hx2
    have := append_disj hi.disj hp hq
    unfold Disj at this
    exact store64_other (by omega)
  · apply hi.chunks.congr
    intro q hq x hx1 hx2
    have := header_disj hi hq hpm hx1 hx2
    exact store64_other (by omega)
  · intro b hb
    exact hi.inside b ((mem_erase_move hp).mp hb)
  · intro b hb
    exact hi.clear b ((mem_erase_move hp).mp hb)
  · simp only [free, hi.inuse, List.length_erase_of_mem hp]
    have : 0 < s.live.length := List.length_pos_of_mem hp
    obtain ⟨n, hn⟩ : ∃ n, s.live.length = n + 1 := ⟨s.live.length - 1, by omega⟩
    rw [hn, Nat.add_sub_cancel, Nat.add_mul]; omega

theorem pairwise_reuse {n : Nat} {live freed : List Nat} {p : Nat}
    (h : (live ++ p :: freed).Pairwise (Disj n)) : (p :: live ++ freed).Pairwise (Disj n) :=
  (List.perm_middle.pairwise_iff (fun h => h.symm)).mp h

/-- Allocation from the free list. -/
theorem alloc_free_inv {s : St} (hi : Inv s) {p : Nat} {rest : List Nat} (hf : s.freed = p :: rest) (os : Nat) :
    (alloc s.w os).1 = p ∧ Inv ⟨(alloc s.w os).2, (alloc s.w os).1 :: s.live, rest⟩ := by
  have hch := hi.chain
  rw [hf] at hch
  obtain ⟨e, h0, hlt, hc⟩ := hch
  have hne : s.w.fa.freeList ≠ 0 := by rw [e]; exact h0
  have heq : alloc s.w os = (p, ⟨{ s.w.fa with freeList := load64 s.w.mem p, inuse := s.w.fa.inuse + s.w.fa.size },
      zero s.w.mem p s.w.fa.size, s.w.regions⟩) := by
    rw [alloc, if_pos hne, e]
  have hd := hi.disj
  rw [hf] at hd
  have hmem : ∀ b, b ∈ p :: s.live ++ rest ↔ b ∈ s.live ++ s.freed := by
    intro b; rw [hf]; exact List.perm_middle.symm.mem_iff
  have h8 := hi.size8
  refine ⟨by rw [heq], ?_⟩
  rw [heq]
  refine ⟨hi.size8, hi.chunk, hi.limit, ?_, ?_, pairwise_reuse hd, ?_, hi.regs, hi.fits, hi.bump, ?_, ?_⟩
  · apply hc.congr
    intro q hq x hx1 hx2
    have hd2 := (List.pairwise_append.mp hd).2.1
    rw [List.pairwise_cons] at hd2
    have := hd2.1 q hq
    unfold Disj at this
    exact zero_other (by omega)
  · apply hi.chunks.congr
    intro q hq x hx1 hx2
    have := header_disj hi hq (b := p) (by rw [hf]; simp) hx1 hx2
    exact zero_other this
  · intro b hb; exact hi.inside b ((hmem b).mp hb)
  · intro b hb; exact hi.clear b ((hmem b).mp hb)
  · simp only [hi.inuse, List.length_cons, Nat.add_mul]; omega

theorem refill_inv {s : St} (hi : Inv s) {os : Nat} (hos : OsOk s.w.fa.chunkSize s.w.regions os) :
    Inv ⟨refill s.w os, s.live, s.freed⟩ ∧ s.w.fa.size ≤ (refill s.w os).fa.chunkRem ∧
      (refill s.w os).fa.size = s.w.fa.size ∧
      ∀ b ∈ s.live, ∀ x, b ≤ x → x < b + s.w.fa.size → (refill s.w os).mem x = s.w.mem x := by
  by_cases hlt : s.w.fa.chunkRem < s.w.fa.size
  · have h8 := hi.size8
    have hck := hi.chunk
    have hlim := hi.limit
    simp only [chunkLimit] at hlim
    have hrem : (s.w.fa.chunkSize + 2 ^ 32 - 8) % 2 ^ 32 = s.w.fa.chunkSize - 8 := by omega
    have heq : refill s.w os = ⟨{ s.w.fa with chunkList := os, chunkPtr := os + 8, chunkRem := s.w.fa.chunkSize - 8 },
        (if s.w.fa.chunkList = 0 then zero s.w.mem os s.w.fa.chunkSize
          else store64 (zero s.w.mem os s.w.fa.chunkSize) os s.w.fa.chunkList), os :: s.w.regions⟩ := by
      rw [refill, if_pos hlt, hrem]
    obtain ⟨h0, hfit, hdis⟩ := hos
    -- memory outside the new region is unchanged
    have hmem : ∀ x, ¬ (os ≤ x ∧ x < os + s.w.fa.chunkSize) →
        (if s.w.fa.chunkList = 0 then zero s.w.mem os s.w.fa.chunkSize
          else store64 (zero s.w.mem os s.w.fa.chunkSize) os s.w.fa.chunkList) x = s.w.mem x := by
      intro x hx
      by_cases hz : s.w.fa.chunkList = 0
      · rw [if_pos hz]; exact zero_other hx
      · rw [if_neg hz, store64_other (by omega)]; exact zero_other hx
    have hblk : ∀ b ∈ s.live ++ s.freed, b + s.w.fa.size ≤ os ∨ os + s.w.fa.chunkSize ≤ b := by
      intro b hb
      obtain ⟨r, hr, h1, h2⟩ := hi.inside b hb
      have := hdis r hr
      unfold Disj at this; omega
    rw [heq]
    refine ⟨⟨hi.size8, hi.chunk, hi.limit, ?_, ?_, hi.disj, ?_, ?_, ?_, ?_, ?_, hi.inuse⟩, ?_, rfl, ?_⟩
    · apply hi.chain.congr
      intro p hp x hx1 hx2
      have := hblk p (List.mem_append_right _ hp)
      exact hmem x (by omega)
    · refine ⟨rfl, h0, by omega, ?_⟩
      have hold : Chain (if s.w.fa.chunkList = 0 then zero s.w.mem os s.w.fa.chunkSize
          else store64 (zero s.w.mem os s.w.fa.chunkSize) os s.w.fa.chunkList) s.w.fa.chunkList s.w.regions := by
        apply hi.chunks.congr
        intro p hp x hx1 hx2
        have := hdis p hp
        unfold Disj at this
        exact hmem x (by omega)
      have hld : load64 (if s.w.fa.chunkList = 0 then zero s.w.mem os s.w.fa.chunkSize
          else store64 (zero s.w.mem os s.w.fa.chunkSize) os s.w.fa.chunkList) os = s.w.fa.chunkList := by
        by_cases hz : s.w.fa.chunkList = 0
        · rw [if_pos hz, hz]; exact load64_zero (by omega)
        · rw [if_neg hz]; exact load64_store64 hi.chunks.lt
      simp only [hld]
      exact hold
    · intro b hb
      obtain ⟨r, hr, h1, h2⟩ := hi.inside b hb
      exact ⟨r, List.mem_cons_of_mem _ hr, h1, h2⟩
    · exact List.pairwise_cons.mpr ⟨hdis, hi.regs⟩
    · intro r hr
      rcases List.mem_cons.mp hr with rfl | hr'
      · exact hfit
      · exact hi.fits r hr'
    · refine Or.inr ⟨os, List.mem_cons_self, Nat.le_refl _, ?_⟩
      simp only; omega
    · intro b hb
      have := hblk b hb
      simp only; omega
    · simp only; omega
    · intro b hb x hx1 hx2
      have := hblk b (List.mem_append_left _ hb)
      exact hmem x (by omega)
  · have : refill s.w os = s.w := by rw [refill, if_neg hlt]
    rw [this]
    exact ⟨hi, by omega, rfl, fun _ _ _ _ _ => rfl⟩

theorem carve_inv {s : St} (hi : Inv s) (hrem : s.w.fa.size ≤ s.w.fa.chunkRem) :
    Inv ⟨(carve s.w).2, (carve s.w).1 :: s.live, s.freed⟩ := by
  have h8 := hi.size8
  have hlim := hi.limit
  simp only [chunkLimit] at hlim
  obtain ⟨r, hr, h1, h2⟩ : ∃ r ∈ s.w.regions, r + 8 ≤ s.w.fa.chunkPtr ∧
      s.w.fa.chunkPtr + s.w.fa.chunkRem ≤ r + s.w.fa.chunkSize := by
    rcases hi.bump with h | h
    · omega
    · exact h
  have hsub : (s.w.fa.chunkRem + 2 ^ 32 - s.w.fa.size) % 2 ^ 32 = s.w.fa.chunkRem - s.w.fa.size := by omega
  have heq : carve s.w = (s.w.fa.chunkPtr, ⟨{ s.w.fa with
      chunkPtr := s.w.fa.chunkPtr + s.w.fa.size, chunkRem := s.w.fa.chunkRem - s.w.fa.size,
      inuse := s.w.fa.inuse + s.w.fa.size }, zero s.w.mem s.w.fa.chunkPtr s.w.fa.size, s.w.regions⟩) := by
    rw [carve, hsub]
  rw [heq]
  refine ⟨hi.size8, hi.chunk, hi.limit, ?_, ?_, ?_, ?_, hi.regs, hi.fits, ?_, ?_, ?_⟩
  · apply hi.chain.congr
    intro p hp x hx1 hx2
    have := hi.clear p (List.mem_append_right _ hp)
    exact zero_other (by omega)
  · apply hi.chunks.congr
    intro q hq x hx1 hx2
    apply zero_other
    have hck := hi.chunk
    rcases pair_disj hi.regs hq hr with e | d
    · omega
    · unfold Disj at d; omega
  · rw [List.cons_append, List.pairwise_cons]
    refine ⟨fun b hb => ?_, hi.disj⟩
    have := hi.clear b hb
    show Disj s.w.fa.size s.w.fa.chunkPtr b
    unfold Disj; omega
  · intro b hb
    rw [List.cons_append] at hb
    rcases List.mem_cons.mp hb with rfl | hb'
    · exact ⟨r, hr, h1, by simp only; omega⟩
    · exact hi.inside b hb'
  · refine Or.inr ⟨r, hr, ?_, ?_⟩
    · simp only; omega
    · simp only; omega
  · intro b hb
    rw [List.cons_append] at hb
    rcases List.mem_cons.mp hb with rfl | hb'
    · simp only; omega
    · have := hi.clear b hb'
      simp only; omega
  · simp only [hi.inuse, List.length_cons, Nat.add_mul]; omega

theorem alloc_inv {s : St} (hi : Inv s) {os : Nat} (hos : OsOk s.w.fa.chunkSize s.w.regions os) :
    Inv ⟨(alloc s.w os).2, (alloc s.w os).1 :: s.live, s.freed.tail⟩ := by
  cases hf : s.freed with
  | cons p rest => exact (alloc_free_inv hi hf os).2
  | nil =>
    have h0 : s.w.fa.freeList = 0 := by
      have := hi.chain; rw [hf] at this; exact this
    have heq : alloc s.w os = carve (refill s.w os) := by
      rw [alloc, if_neg (by omega)]
    obtain ⟨h1, h2, h3, _⟩ := refill_inv hi hos
    rw [heq]
    rw [hf] at h1
    exact carve_inv h1 (by rw [h3]; exact h2)

theorem step_inv {s s' : St} {op : Op} (hi : Inv s) (h : step s op = some s') : Inv s' := by
  cases op with
  | alloc os =>
    rw [step] at h
    split at h
    · rename_i hos
      cases h
      exact alloc_inv hi hos
    · cases h
  | free p =>
    rw [step] at h
    split at h
    · rename_i hp
      cases h
      exact free_inv hi hp
    · cases h
  | write a v =>
    rw [step] at h
    split at h
    · rename_i hw
      cases h
      obtain ⟨b, hb, h1, h2⟩ := hw
      exact write_inv hi hb h1 h2
    · cases h

theorem run_inv {s s' : St} : ∀ {ops : List Op}, Inv s → run s ops = some s' → Inv s' := by
  intro ops
  induction ops generalizing s with
  | nil => intro hi h; cases h; exact hi
  | cons op ops ih =>
    intro hi h
    rw [run] at h
    cases hs : step s op with
    | none => rw [hs] at h; cases h
    | some s1 => rw [hs] at h; exact ih (step_inv hi hs) h

theorem alloc_size (w : World) (os : Nat) : (alloc w os).2.fa.size = w.fa.size := by
  rw [alloc]; split
  · rfl
  · simp only [carve, refill]; split <;> rfl

theorem step_size {s s' : St} {op : Op} (h : step s op = some s') : s'.w.fa.size = s.w.fa.size := by
  cases op with
  | alloc os =>
    rw [step] at h
    split at h
    · cases h; exact alloc_size _ _
    · cases h
  | free p => rw [step] at h; split at h <;> cases h; rfl
  | write a v => rw [step] at h; split at h <;> cases h; rfl

theorem run_size {s s' : St} : ∀ {ops : List Op}, run s ops = some s' → s'.w.fa.size = s.w.fa.size := by
  intro ops
  induction ops generalizing s with
  | nil => intro h; cases h; rfl
  | cons op ops ih =>
    intro h
    rw [run] at h
    cases hs : step s op with
    | none => rw [hs] at h; cases h
    | some s1 => rw [hs] at h; rw [ih h, step_size hs]

end Nature.FixAlloc
