import Verif.PageAlloc.HeapLemmas
/-!
# C03 – C06  The page allocator

C03: the summary of a chunk is exact.  C04: merged summaries, and every summary of every reachable heap, are exact.
C05: the in-chunk search is first-fit.  C06: spans handed out by any history of allocations and releases.
-/
namespace Nature.PageAlloc
open Nature

/-! ## C03 -/

/-- C03: for every bitmap of a chunk (eight 64-bit blocks) the computed summary reports exactly the leading free pages,
the trailing free pages and the longest free run; the scan never hits undefined behaviour. -/
theorem C03_chunk_summary (c : Chunk) (h : c.length = 8) :
    ∃ s, chunkSummarize c = .ok s ∧
      LeadIs (fun i => !used c i) 0 512 s.start ∧
      TailIs (fun i => !used c i) 0 512 s.tail ∧
      MaxIs (fun i => !used c i) 0 512 s.max := by
  obtain ⟨s, e, h1, h2, h3⟩ := chunkSummarize_spec c h
  exact ⟨s, e, h1, h2, h3⟩

/-- The three numbers are determined by the bitmap: no other summary satisfies C03. -/
theorem C03_unique (free : Nat → Bool) (lo hi : Nat) (s t : Summary) (hs : Exact free lo hi s) (ht : Exact free lo hi t) :
    s = t := by
  cases s; cases t
  have a := hs.lead.unique ht.lead
  have b := hs.tail.unique ht.tail
  have c := hs.max.unique ht.max
  simp_all

-- a chunk with its first page used and its last two pages used
example : chunkSummarize [1, 0, 0, 0, 0, 0, 0, 0xC000000000000000] = .ok ⟨0, 509, 0⟩ := by decide +kernel

/-! ## C04 -/

/-- C04 (one step): the summary merged from eight adjacent regions' exact summaries is exact for their union. -/
theorem C04_merge (free : Nat → Bool) (level lo : Nat) (h : level < 4) (l : List Summary) (hl : l.length = 8)
    (hs : ∀ j s, l[j]? = some s →
      Exact free (lo + j * levelPages (level + 1)) (lo + (j + 1) * levelPages (level + 1)) s) :
    ∃ s, mergeSummarize level l = .ok s ∧ Exact free lo (lo + levelPages level) s := by
  refine mergeSummarize_spec h l hl ?_
  clear hl h
  induction l generalizing lo with
  | nil => trivial
  | cons s r ih =>
    refine ⟨by simpa using hs 0 s rfl, ih (lo + levelPages (level + 1)) (fun j t ht => ?_)⟩
    have := hs (j + 1) t (by simpa using ht)
    have e1 : lo + levelPages (level + 1) + j * levelPages (level + 1) = lo + (j + 1) * levelPages (level + 1) := by
      rw [Nat.add_mul]; omega
    have e2 : lo + levelPages (level + 1) + (j + 1) * levelPages (level + 1) = lo + (j + 1 + 1) * levelPages (level + 1) := by
      rw [Nat.add_mul (j + 1) 1]; omega
    rw [e1, e2]; exact this

/-- The status of page `p` as a user sees it: it has been added to the heap and no allocated span covers it. -/
def Available (h : Heap) (live : List Span) (p : Nat) : Prop :=
  arenaBase + p * 8192 < h.cursor ∧ ∀ s ∈ live, ¬ (s.base ≤ arenaBase + p * 8192 ∧ arenaBase + p * 8192 < s.base + s.pages * 8192)

instance (h : Heap) (live : List Span) (p : Nat) : Decidable (Available h live p) := by
  unfold Available; infer_instance

theorem cursor_eq {G total : Nat} {h : Heap} {live : List Span} (H : HInv G total h live) (p : Nat) :
    arenaBase + p * 8192 < h.cursor ↔ p < 512 * G := by
  rcases H.cur with ⟨h1, h2, h3, h4⟩ | ⟨h1, h2, h3⟩
  · rw [h3]; omega
  · rw [h3]; omega

theorem covers_iff {G total : Nat} {h : Heap} {live : List Span} (H : HInv G total h live) {s : Span} (hs : s ∈ live)
    (addr : Nat) (ha : arenaBase ≤ addr) :
    (s.base ≤ addr ∧ addr < s.base + s.pages * 8192) ↔ (s.page ≤ pageOf addr ∧ pageOf addr < s.page + s.pages) := by
  obtain ⟨w1, w2, w3⟩ := H.wf s hs
  have h1 := pageOf_addr addr ha
  rw [w2]
  generalize s.page = x at *
  omega

theorem available_iff {G total : Nat} {h : Heap} {live : List Span} (H : HInv G total h live) (p : Nat) :
    pageFree (fun c => decide (c < G)) h.pa p = true ↔ Available h live p := by
  rw [H.free p]
  unfold Available
  rw [cursor_eq H]
  have hp := pageOf_page p
  constructor
  · rintro ⟨h1, h2⟩
    refine ⟨h1, fun s hs hc => ?_⟩
    rw [covers_iff H hs _ (by omega), hp] at hc
    rw [(H.spans p s).2 ⟨hs, hc⟩] at h2; cases h2
  · rintro ⟨h1, h2⟩
    refine ⟨h1, ?_⟩
    cases hsp : h.spans p with
    | none => rfl
    | some s =>
      obtain ⟨q1, q2⟩ := (H.spans p s).1 hsp
      exact absurd ((covers_iff H q1 _ (by omega)).2 (by rw [hp]; exact q2)) (h2 s q1)

/-- C04 (whole tree): after any history of allocations and releases, every summary of every level is exact with respect
to the spans that are actually allocated. -/
theorem C04_tree {h : Heap} {live : List Span} (r : Reach h live) (level i : Nat) (hl : level ≤ 4) :
    Exact (fun p => decide (Available h live p)) (i * levelPages level) ((i + 1) * levelPages level) (h.pa.sum level i) := by
  obtain ⟨G, total, H⟩ := r.inv
  refine (H.pa.sums level hl i).congr (fun p _ _ => ?_)
  have := available_iff H p
  cases hf : pageFree (fun c => decide (c < G)) h.pa p
  · rw [hf] at this
    have : ¬ Available h live p := fun x => by simpa using this.2 x
    simp [this]
  · simp [this.1 hf]

/-! ## C05 -/

/-- C05: the in-chunk search for `n` pages is first-fit: a reported start has `n` free pages and no lower start has;
failure is reported only if the chunk has no such run. -/
theorem C05_first_fit (c : Chunk) (h : c.length = 8) (n : Nat) (hn : 0 < n) :
    (∀ r, chunkFind c n = some r →
      r + n ≤ 512 ∧ (∀ i, r ≤ i → i < r + n → used c i = false) ∧
      ∀ a, a < r → ∃ i, a ≤ i ∧ i < a + n ∧ used c i = true) ∧
    (chunkFind c n = none → ∀ a, a + n ≤ 512 → ∃ i, a ≤ i ∧ i < a + n ∧ used c i = true) := by
  have hf := chunkFind_spec c h n hn
  have neg : ∀ a, ¬ AllFree (chunkFree c) a n → ∃ i, a ≤ i ∧ i < a + n ∧ used c i = true := by
    intro a ha
    apply Classical.byContradiction
    intro hx
    apply ha
    intro i h1 h2
    cases hu : used c i
    · simp [chunkFree, hu]
    · exact absurd ⟨i, h1, h2, hu⟩ hx
  constructor
  · intro r hr
    rw [hr] at hf
    have f1 : r + n ≤ 512 := hf.1
    have f2 := hf.2.1
    refine ⟨f1, fun i h1 h2 => ?_, fun a ha => neg a (hf.2.2 a ha)⟩
    have := f2 i h1 h2
    simpa [chunkFree] using this
  · intro hr a ha
    rw [hr] at hf
    exact neg a (fun hh => hf ⟨a, Nat.zero_le _, ha, hh⟩)

-- two pages do not fit below page 3 of this chunk; the run of 70 pages crosses block borders
example : chunkFind [0b101, 0, 0, 0, 0, 0, 0, 0] 2 = some 3 := by decide +kernel
example : chunkFind [0xFFFFFFFFFFFFFFFF, 1, 0, 0, 0, 0, 0, 0] 70 = some 65 := by decide +kernel
example : chunkFind [1, 0, 0, 0, 0, 0, 0, 0] 512 = none := by decide +kernel

/-! ## C06 -/

/-- Two spans share no page. -/
def Disjoint (s t : Span) : Prop := s.base + s.pages * 8192 ≤ t.base ∨ t.base + t.pages * 8192 ≤ s.base

/-- C06 (disjointness): in every reachable heap the allocated spans are page aligned, lie between the heap base and
the heap break and are pairwise disjoint. -/
theorem C06_disjoint {h : Heap} {live : List Span} (r : Reach h live) :
    (∀ s ∈ live, 0 < s.pages ∧ arenaBase ≤ s.base ∧ (s.base - arenaBase) % 8192 = 0 ∧ s.base + s.pages * 8192 ≤ h.cursor) ∧
    live.Pairwise Disjoint := by
  obtain ⟨G, total, H⟩ := r.inv
  constructor
  · intro s hs
    obtain ⟨w1, w2, w3⟩ := H.wf s hs
    have hc := (cursor_eq H (s.page + s.pages - 1)).2 (by omega)
    refine ⟨w1, by omega, by omega, ?_⟩
    have hcur : h.cursor = arenaBase + 4194304 * G := by
      rcases H.cur with ⟨_, _, h3, _⟩ | ⟨_, _, h3⟩
      · rw [h3] at hc; omega
      · exact h3
    rw [hcur, w2]
    generalize s.page = x at *
    omega
  · refine H.nodup.imp_of_mem (fun {a b} ha hb hab => ?_)
    apply Classical.byContradiction
    intro hx
    unfold Disjoint at hx
    obtain ⟨a1, a2, a3⟩ := H.wf a ha
    obtain ⟨b1, b2, b3⟩ := H.wf b hb
    have : ∃ p, (a.page ≤ p ∧ p < a.page + a.pages) ∧ (b.page ≤ p ∧ p < b.page + b.pages) := by
      rw [a2, b2] at hx
      generalize a.page = x at *
      generalize b.page = y at *
      by_cases hxy : x ≤ y
      · exact ⟨y, by omega⟩
      · exact ⟨x, by omega⟩
    obtain ⟨p, hpa, hpb⟩ := this
    have e1 := (H.spans p a).2 ⟨ha, hpa⟩
    have e2 := (H.spans p b).2 ⟨hb, hpb⟩
    rw [e1] at e2; cases e2; exact hab rfl

/-- C06 (lookup): for every address, `span_of` returns the allocated span covering it, and nothing if no span does. -/
theorem C06_span_of {h : Heap} {live : List Span} (r : Reach h live) (addr : Nat) (s : Span) :
    spanOf h addr = some s ↔ s ∈ live ∧ s.base ≤ addr ∧ addr < s.base + s.pages * 8192 := by
  obtain ⟨G, total, H⟩ := r.inv
  unfold spanOf
  by_cases ha : hasArena h addr = true
  · rw [if_pos ha, H.spans]
    have hb := ((hasArena_iff H addr).1 ha).1
    constructor
    · rintro ⟨h1, h2⟩; exact ⟨h1, (covers_iff H h1 addr hb).2 h2⟩
    · rintro ⟨h1, h2⟩; exact ⟨h1, (covers_iff H h1 addr hb).1 h2⟩
  · rw [if_neg ha]
    simp only [reduceCtorEq, false_iff, not_and]
    intro hs h1 h2
    apply ha
    obtain ⟨w1, w2, w3⟩ := H.wf s hs
    have hr := H.room
    rw [hasArena_iff H]
    rw [w2] at h1 h2
    generalize s.page = x at *
    omega

/-- C06 (release): freeing an allocated span never fails an assertion. -/
theorem C06_free_ok {h : Heap} {live : List Span} (r : Reach h live) (s : Span) (hs : s ∈ live) :
    ∃ h', freeSpan h s = .ok h' ∧ Reach h' (live.erase s) ∧ h'.cursor = h.cursor := by
  obtain ⟨G, total, H⟩ := r.inv
  obtain ⟨h', e, _, c⟩ := freeSpan_spec H hs
  exact ⟨h', e, Reach.free r hs e, c⟩

/-- C06 (soundness): a span returned by an allocation has the requested length and overlaps no span already allocated. -/
theorem C06_alloc_sound {h : Heap} {live : List Span} (r : Reach h live) {n : Nat} {s : Span} {h' : Heap}
    (e : allocSpan h osGrants n = .ok (s, h')) :
    s.pages = n ∧ 0 < n ∧ (∀ t ∈ live, Disjoint s t) ∧ Reach h' (s :: live) := by
  have r' := Reach.alloc r e
  have hd := (C06_disjoint r').2
  rw [List.pairwise_cons] at hd
  have hw := (C06_disjoint r').1 s (List.mem_cons_self ..)
  have hp : s.pages = n := by
    unfold allocSpan at e
    split at e
    · cases e
    · cases h1 : findOrGrow h osGrants n with
      | ok v =>
        rw [h1, Res.bind_ok] at e
        cases h2 : setSpans v.2 ⟨v.1, n⟩ n 0 with
        | ok w => rw [h2, Res.bind_ok] at e; cases e; rfl
        | throws => rw [h2, Res.bind_throws] at e; cases e
        | abort => rw [h2, Res.bind_abort] at e; cases e
        | ub => rw [h2, Res.bind_ub] at e; cases e
      | throws => rw [h1, Res.bind_throws] at e; cases e
      | abort => rw [h1, Res.bind_abort] at e; cases e
      | ub => rw [h1, Res.bind_ub] at e; cases e
  exact ⟨hp, by omega, hd.1, r'⟩

/-- C06 (completeness within the first 16 GiB): if `n` consecutive pages below the heap break and below 16 GiB are
available, allocating `n` pages succeeds without growing the heap.
The full statement (without the 16 GiB bound) is refuted by `C06_growth_counterexample`. -/
theorem C06_reuse_partial {h : Heap} {live : List Span} (r : Reach h live) {n a : Nat} (hn : 0 < n)
    (ha : a + n ≤ 2097152) (hf : ∀ p, a ≤ p → p < a + n → Available h live p) :
    ∃ s h', allocSpan h osGrants n = .ok (s, h') ∧ h'.cursor = h.cursor := by
  obtain ⟨G, total, H⟩ := r.inv
  have hrun : HasRun (pageFree (fun c => decide (c < G)) h.pa) 0 (searchEnd (arenaBase + total) * 2097152) n := by
    have := searchEnd_pos (arenaBase + total)
    have h1 : 1 * 2097152 ≤ searchEnd (arenaBase + total) * 2097152 := Nat.mul_le_mul_right _ this
    exact ⟨a, Nat.zero_le _, Nat.le_trans ha (by simpa using h1), fun p h1 h2 => (available_iff H p).2 (hf p h1 h2)⟩
  obtain ⟨p, h', e, _, c⟩ := (allocSpan_cases H hn).1 hrun
  exact ⟨_, h', e, c⟩

/-- Address space reserved so far, in bytes (the head hint points at its end). -/
def reserved (h : Heap) : Nat := hintAddr h - arenaBase

/-- C06 (progress, heap below 16 GiB): as long as the reservation an allocation might need keeps the heap within
16 GiB, the allocation succeeds.  The full statement (no bound) is refuted by `C06_growth_counterexample`. -/
theorem C06_alloc_ok_partial {h : Heap} {live : List Span} (r : Reach h live) {n : Nat} (hn : 0 < n)
    (hb : reserved h + alignUp (alignUp n 512 * 8192) 67108864 ≤ 16 * 1024 * 1024 * 1024) :
    ∃ s h', allocSpan h osGrants n = .ok (s, h') ∧
      reserved h' ≤ reserved h + alignUp (alignUp n 512 * 8192) 67108864 := by
  obtain ⟨G, total, H⟩ := r.inv
  unfold reserved at *
  rw [hintAddr_eq H] at hb ⊢
  have hc := allocSpan_cases H hn
  by_cases hr : HasRun (pageFree (fun c => decide (c < G)) h.pa) 0 (searchEnd (arenaBase + total) * 2097152) n
  · obtain ⟨p, h', e, K, _⟩ := hc.1 hr
    exact ⟨_, h', e, by rw [hintAddr_eq K]; omega⟩
  · obtain ⟨h1, m, total', m1, H1, ht, (⟨_, x⟩ | ⟨p, h2, e1, K, _⟩)⟩ := hc.2 hr
    · exfalso
      -- the new chunks are free and lie below 16 GiB
      have hnew : ∀ q, 512 * G ≤ q → q < 512 * (G + m) → pageFree (fun c => decide (c < G + m)) h1.pa q = true ∨
          ∃ s ∈ live, s.page + s.pages > 512 * G := by
        intro q q1 q2
        by_cases hsp : h1.spans q = none
        · exact Or.inl ((H1.free q).2 ⟨q2, hsp⟩)
        · obtain ⟨s, hs⟩ := Option.ne_none_iff_exists'.1 hsp
          obtain ⟨a1, a2, a3⟩ := (H1.spans q s).1 hs
          exact Or.inr ⟨s, a1, by omega⟩
      have hnew' : ∀ q, 512 * G ≤ q → q < 512 * (G + m) → pageFree (fun c => decide (c < G + m)) h1.pa q = true := by
        intro q q1 q2
        rcases hnew q q1 q2 with hx | ⟨s, hs, hx⟩
        · exact hx
        · have := (H.wf s hs).2.2; omega
      have hroom := H1.room
      have htot : total' ≤ 16 * 1024 * 1024 * 1024 := by
        rcases ht with ⟨t1, _⟩ | t1
        · omega
        · unfold arenaSize at t1; omega
      have hm : 0 < m := by omega
      rcases x with x | x
      · exact x ⟨512 * G, by omega, hnew' _ (Nat.le_refl _) (by omega)⟩
      · apply x
        have := searchEnd_pos (arenaBase + total')
        have h1 : 1 * 2097152 ≤ searchEnd (arenaBase + total') * 2097152 := Nat.mul_le_mul_right _ this
        refine ⟨512 * G, Nat.zero_le _, ?_, fun q q1 q2 => hnew' q q1 (by omega)⟩
        have hG : 512 * G + n ≤ 2097152 := by clear h1; omega
        exact Nat.le_trans hG (by simpa using h1)
    · refine ⟨_, h2, e1, ?_⟩
      rw [hintAddr_eq K]
      rcases ht with ⟨t1, _⟩ | t1
      · omega
      · unfold arenaSize at t1; omega

/-- The property fails on the code: once the first 16 GiB are in use, the next allocation that needs to grow the heap
dies in `page_alloc_grow`'s assertion although the OS keeps granting memory.  Witness: one 16 GiB span. -/
theorem C06_growth_counterexample :
    ∃ h live, Reach h live ∧ ∀ n, 0 < n → allocSpan h osGrants n = .abort := by
  obtain ⟨s, h, e, _⟩ := C06_alloc_ok_partial Reach.init (n := 2097152) (by omega) (by decide +kernel)
  have hs := C06_alloc_sound Reach.init e
  refine ⟨h, [s], hs.2.2.2, fun n hn => ?_⟩
  have hc0 := allocSpan_cases HInv_init (n := 2097152) (by omega)
  have hno : ¬ HasRun (pageFree (fun c => decide (c < 0)) init.pa) 0 (searchEnd (arenaBase + 0) * 2097152) 2097152 := by
    rintro ⟨a, _, _, h3⟩
    have := h3 a (Nat.le_refl _) (by omega)
    rw [pageFree_init] at this; cases this
  obtain ⟨h1, m, total', m1, H1, ht, (⟨x, _⟩ | ⟨p, h2, e1, H, _⟩)⟩ := hc0.2 hno
  · rw [e] at x; cases x
  · rw [e] at e1; cases e1
    have htot : total' = 17179869184 := by
      rcases ht with ⟨t1, t2⟩ | t1
      · omega
      · rw [t1]; decide +kernel
    have hroom := H.room
    obtain ⟨w1, w2, w3⟩ := H.wf _ (List.mem_cons_self ..)
    rw [show (Span.mk (arenaBase + p * 8192) 2097152).page = p from pageOf_page p] at w3
    simp only [Nat.zero_add] at *
    have hm : m = 4096 := by omega
    have hp : p = 0 := by omega
    subst hm hp htot
    -- every page of the first 16 GiB is taken
    have htaken : ∀ q, q < 2097152 → h.spans q ≠ none := by
      intro q hq
      rw [(H.spans q ⟨arenaBase + 0 * 8192, 2097152⟩).2 ⟨List.mem_cons_self .., by
        rw [show (Span.mk (arenaBase + 0 * 8192) 2097152).page = 0 from pageOf_page 0]; exact ⟨Nat.zero_le _, by simpa using hq⟩⟩]
      simp
    have hc := allocSpan_cases H hn
    have hno2 : ¬ HasRun (pageFree (fun c => decide (c < 4096)) h.pa) 0 (searchEnd (arenaBase + 17179869184) * 2097152) n := by
      rintro ⟨a, _, _, h3⟩
      have := (H.free a).1 (h3 a (Nat.le_refl _) (by omega))
      exact htaken a (by omega) this.2
    obtain ⟨g1, m', t', _, K, _, (⟨x, _⟩ | ⟨p', g2, x, K2, q, q1, q2⟩)⟩ := hc.2 hno2
    · exact x
    · exfalso
      have hq := ((K.free q).1 q2).2
      cases hs : h.spans q with
      | none => exact htaken q q1 hs
      | some s =>
        rw [(K.spans q s).2 ((H.spans q s).1 hs)] at hq
        cases hq

/-- The same failure on an empty heap: if the OS refuses the first hint but grants a later one, the very first
allocation aborts, because the reserved range starts 1 TiB above the part of the tree the assertion looks at. -/
theorem C06_hint_fallback_counterexample (n : Nat) (hn : 0 < n) :
    allocSpan init (fun a _ => decide (a ≠ arenaBase)) n = .abort := by
  have hno : ¬ HasRun (pageFree (fun c => decide (c < 0)) init.pa) 0 (searchEnd (arenaBase + 0) * 2097152) n := by
    rintro ⟨a, _, _, h3⟩
    have := h3 a (Nat.le_refl _) (by omega)
    rw [pageFree_init] at this; cases this
  have hf := (pageAllocFind_spec HInv_init.pa (hint := arenaBase + 0) hn (Nat.le_refl _) false).1 hno
  have hA := alignUp_le n 512 (by decide)
  obtain ⟨m, hm⟩ : ∃ m, alignUp n 512 = 512 * m := ⟨alignUp n 512 / 512, by omega⟩
  have hsz : alignUp n chunkBits * pageSize = 4194304 * m := by
    unfold chunkBits pageSize; rw [hm]; omega
  have hm0 : 0 < m := by omega
  have hint : hintAddr init = arenaBase + 0 := by decide +kernel
  have hens : ∃ h1, ensureArena init (fun a _ => decide (a ≠ arenaBase)) (4194304 * m) = .ok h1 ∧ h1.pa = init.pa ∧
      h1.cursor = arenaBase + 4194304 * 262144 := by
    unfold ensureArena
    rw [if_neg (by decide), if_pos (by show 0 - 0 < _; omega)]
    unfold sysAlloc
    have hh : init.hints = arenaBase :: (arenaBase + 4194304 * 262144) ::
        ((List.range 126).map fun i => arenaBase + (i + 2) * hintSize) := by decide +kernel
    rw [hh]
    simp only [reserve, ne_eq, not_true_eq_false, decide_false, Bool.false_eq_true, if_false]
    rw [if_pos (by decide)]
    simp only [Res.bind_ok]
    rw [if_neg (by decide), if_neg (by decide)]
    exact ⟨_, rfl, rfl, rfl⟩
  obtain ⟨h1, e1, e2, e3⟩ := hens
  have c1 : chunkIndex (arenaBase + 4194304 * 262144) = 262144 := by decide +kernel
  have c2 : chunkIndex (arenaBase + 4194304 * 262144 + 4194304 * m - 1) = 262144 + m - 1 := by
    unfold chunkIndex chunkBits pageSize; omega
  have hch : ∀ c, (growChunks init.pa 262144 (262144 + m - 1)).chunks c =
      if 262144 / chunkSplit ≤ c / chunkSplit ∧ c / chunkSplit ≤ (262144 + m - 1) / chunkSplit
      then some (List.replicate 8 0) else none := by
    intro c; rfl
  obtain ⟨pa', u1, u2, u3⟩ := summaryUpdate_spec (grown := fun c => decide (262144 ≤ c ∧ c ≤ 262144 + m - 1))
    (old := fun _ => false) (growChunks init.pa 262144 (262144 + m - 1)) (arenaBase + 4194304 * 262144) (4194304 * m)
    262144 (262144 + m - 1) c1 c2 (by omega)
    ⟨fun c hc => ⟨List.replicate 8 0, by
        simp only [decide_eq_true_eq] at hc
        rw [hch c, if_pos ⟨Nat.div_le_div_right hc.1, Nat.div_le_div_right hc.2⟩], by simp⟩,
     fun c _ ch he => by
        rw [hch c] at he
        split at he
        · cases he; rfl
        · cases he⟩
    (fun c h1 h2 => by simp only [decide_eq_true_eq]; omega)
    (fun level _ i => exact_none (Nat.mul_le_mul_right _ (by omega)) (fun _ _ _ => rfl))
    (fun p hp => by simp only [pageFree, hp, decide_false, Bool.false_and])
  have hgrow : pageAllocGrow init.pa (arenaBase + 4194304 * 262144) (4194304 * m) = .abort := by
    unfold pageAllocGrow
    simp only
    rw [c1, c2, u1, Res.bind_ok, if_neg]
    rw [max_pos_iff (u3.sums 0 (by omega) 0), show levelPages 0 = 2097152 from rfl]
    rintro ⟨p, _, p2, p3⟩
    simp only [pageFree, Bool.and_eq_true, decide_eq_true_eq] at p3
    omega
  unfold allocSpan findOrGrow
  rw [if_neg (by omega), hint, hf, if_neg (by decide), Res.bind_ok]
  simp only
  unfold grow
  simp only
  rw [hsz, e1, Res.bind_ok, e2, e3, hgrow]
  rfl

/-! ### The hypotheses are met -/

-- a history: allocate 3 pages, allocate 700 pages, free the first span
example : ∃ h a b, Reach h [a, b] ∧ a.pages = 700 ∧ b.pages = 3 := by
  obtain ⟨b, h1, e1, r1⟩ := C06_alloc_ok_partial Reach.init (n := 3) (by omega) (by decide +kernel)
  have s1 := C06_alloc_sound Reach.init e1
  have x1 : reserved init + alignUp (alignUp 3 512 * 8192) 67108864 = 67108864 := by decide +kernel
  have x2 : alignUp (alignUp 700 512 * 8192) 67108864 = 67108864 := by decide +kernel
  obtain ⟨a, h2, e2, _⟩ := C06_alloc_ok_partial s1.2.2.2 (n := 700) (by omega) (by omega)
  have t := C06_alloc_sound s1.2.2.2 e2
  exact ⟨h2, a, b, t.2.2.2, t.1, s1.1⟩

end Nature.PageAlloc
