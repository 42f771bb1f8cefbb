import Verif.PageAlloc.TreeLemmas
/-! Heap growth and spans: the invariant of allocation histories. -/
namespace Nature.PageAlloc
open Nature Classical

/-- The operating system always grants the first hinted range. -/
def osGrants : Nat → Nat → Bool := fun _ _ => true

/-- All heaps reachable by allocating and freeing spans, with the list of spans currently allocated. -/
inductive Reach : Heap → List Span → Prop where
  | init : Reach init []
  | alloc {h live n s h'} : Reach h live → allocSpan h osGrants n = .ok (s, h') → Reach h' (s :: live)
  | free {h live s h'} : Reach h live → s ∈ live → freeSpan h s = .ok h' → Reach h' (live.erase s)

/-- First page number of a span. -/
def Span.page (s : Span) : Nat := pageOf s.base

structure HInv (G total : Nat) (h : Heap) (live : List Span) : Prop where
  hints : ∃ rest, h.hints = (arenaBase + total) :: rest
  align : total % arenaSize = 0
  cur : (total = 0 ∧ h.fin = 0 ∧ h.cursor = 0 ∧ G = 0) ∨
    (0 < total ∧ h.fin = arenaBase + total ∧ h.cursor = arenaBase + 4194304 * G)
  room : 4194304 * G ≤ total
  arenas : ∀ i, h.arenas i = true ↔ i * arenaSize < total
  pa : Inv (fun c => decide (c < G)) h.pa
  wf : ∀ s ∈ live, 0 < s.pages ∧ s.base = arenaBase + s.page * 8192 ∧ s.page + s.pages ≤ 512 * G
  nodup : live.Nodup
  spans : ∀ p s, h.spans p = some s ↔ s ∈ live ∧ s.page ≤ p ∧ p < s.page + s.pages
  free : ∀ p, pageFree (fun c => decide (c < G)) h.pa p = true ↔ p < 512 * G ∧ h.spans p = none

theorem pageOf_page (p : Nat) : pageOf (arenaBase + p * 8192) = p := by
  unfold pageOf pageSize; omega

theorem pageOf_addr (addr : Nat) (h : arenaBase ≤ addr) :
    arenaBase + pageOf addr * 8192 ≤ addr ∧ addr < arenaBase + pageOf addr * 8192 + 8192 := by
  unfold pageOf pageSize; omega

theorem hasArena_iff {G total : Nat} {h : Heap} {live : List Span} (H : HInv G total h live) (addr : Nat) :
    hasArena h addr = true ↔ arenaBase ≤ addr ∧ addr < arenaBase + total := by
  unfold hasArena
  simp only [Bool.and_eq_true, decide_eq_true_eq, H.arenas]
  have ha := H.align
  unfold arenaIndex arenaSize at *
  rcases H.cur with ⟨h1, h2, h3, h4⟩ | ⟨h1, h2, h3⟩
  · rw [h2]; constructor
    · omega
    · omega
  · rw [h2]; constructor
    · omega
    · intro ⟨a, b⟩; refine ⟨⟨a, b⟩, ?_⟩; omega

theorem setSpans_spec (s : Span) (p : Nat) (hb : s.base = arenaBase + p * 8192) (k i : Nat) (h : Heap)
    (ha : ∀ j, i ≤ j → j < i + k → hasArena h (s.base + j * pageSize) = true)
    (hn : ∀ j, i ≤ j → j < i + k → h.spans (p + j) = none) :
    ∃ f, setSpans h s k i = .ok { h with spans := f } ∧
      ∀ q, f q = if p + i ≤ q ∧ q < p + i + k then some s else h.spans q := by
  induction k generalizing i h with
  | zero => exact ⟨h.spans, rfl, fun q => by rw [if_neg (by omega)]⟩
  | succ k ih =>
    have e : pageOf (s.base + i * pageSize) = p + i := by
      rw [hb]; unfold pageOf pageSize; omega
    unfold setSpans
    simp only
    rw [if_pos (ha i (Nat.le_refl _) (by omega)), e, if_pos (hn i (Nat.le_refl _) (by omega))]
    obtain ⟨f, e1, e2⟩ := ih (i + 1) { h with spans := fun q => if q = p + i then some s else h.spans q }
      (fun j h1 h2 => ha j (by omega) (by omega)) (fun j h1 h2 => by
        show (if p + j = p + i then some s else h.spans (p + j)) = none
        rw [if_neg (by omega)]; exact hn j (by omega) (by omega))
    refine ⟨f, e1, fun q => ?_⟩
    rw [e2 q]
    dsimp only
    by_cases hq : q = p + i
    · rw [if_neg (by omega), if_pos hq, if_pos (by omega)]
    · rw [if_neg hq]
      by_cases hq2 : p + i ≤ q ∧ q < p + i + (k + 1)
      · rw [if_pos hq2, if_pos (by omega)]
      · rw [if_neg hq2, if_neg (by omega)]

theorem clearSpans_spec (s : Span) (p : Nat) (hb : s.base = arenaBase + p * 8192) (k i : Nat) (h : Heap)
    (ha : ∀ j, i ≤ j → j < i + k → hasArena h (s.base + j * pageSize) = true)
    (hn : ∀ j, i ≤ j → j < i + k → h.spans (p + j) ≠ none) :
    ∃ f, clearSpans h s k i = .ok { h with spans := f } ∧
      ∀ q, f q = if p + i ≤ q ∧ q < p + i + k then none else h.spans q := by
  induction k generalizing i h with
  | zero => exact ⟨h.spans, rfl, fun q => by rw [if_neg (by omega)]⟩
  | succ k ih =>
    have e : pageOf (s.base + i * pageSize) = p + i := by
      rw [hb]; unfold pageOf pageSize; omega
    unfold clearSpans
    simp only
    rw [if_pos (ha i (Nat.le_refl _) (by omega)), e, if_neg (hn i (Nat.le_refl _) (by omega))]
    obtain ⟨f, e1, e2⟩ := ih (i + 1) { h with spans := fun q => if q = p + i then none else h.spans q }
      (fun j h1 h2 => ha j (by omega) (by omega)) (fun j h1 h2 => by
        show (if p + j = p + i then none else h.spans (p + j)) ≠ none
        rw [if_neg (by omega)]; exact hn j (by omega) (by omega))
    refine ⟨f, e1, fun q => ?_⟩
    rw [e2 q]
    dsimp only
    by_cases hq : q = p + i
    · rw [if_neg (by omega), if_pos hq, if_pos (by omega)]
    · rw [if_neg hq]
      by_cases hq2 : p + i ≤ q ∧ q < p + i + (k + 1)
      · rw [if_pos hq2, if_pos (by omega)]
      · rw [if_neg hq2, if_neg (by omega)]

/-! ### growth -/

theorem growChunks_ok {G lo hi : Nat} {pa : PA} (h : ChunksOk (fun c => decide (c < G)) pa) (hlo : lo = G) (hle : G ≤ hi + 1) :
    ChunksOk (fun c => decide (c < hi + 1)) (growChunks pa lo hi) ∧
    (∀ c, c < G → (growChunks pa lo hi).chunks c = pa.chunks c) ∧
    (∀ c, G ≤ c → c ≤ hi → (growChunks pa lo hi).chunks c = some (List.replicate 8 0)) := by
  have h1 : ∀ c, c < G → (growChunks pa lo hi).chunks c = pa.chunks c := by
    intro c hc
    obtain ⟨ch, e, _⟩ := h.present c (by simpa using hc)
    show (pa.chunks c).or _ = _
    rw [e]; rfl
  have hfr : ∀ c, G ≤ c → ∀ ch, (growChunks pa lo hi).chunks c = some ch → ch = List.replicate 8 0 := by
    intro c hc ch hch
    have hch : (pa.chunks c).or _ = some ch := hch
    cases e : pa.chunks c with
    | some x =>
      rw [e] at hch
      simp only [Option.some_or, Option.some.injEq] at hch
      rw [← hch]; exact h.fresh c (by simpa using hc) x e
    | none =>
      rw [e] at hch
      simp only [Option.none_or] at hch
      split at hch
      · cases hch; rfl
      · cases hch
  have h2 : ∀ c, G ≤ c → c ≤ hi → (growChunks pa lo hi).chunks c = some (List.replicate 8 0) := by
    intro c hc1 hc2
    have : ∃ x, (growChunks pa lo hi).chunks c = some x := by
      show ∃ x, (pa.chunks c).or _ = some x
      cases e : pa.chunks c with
      | some x => exact ⟨x, rfl⟩
      | none =>
        refine ⟨List.replicate 8 0, ?_⟩
        simp only [Option.none_or]
        rw [if_pos]
        exact ⟨Nat.div_le_div_right (by omega), Nat.div_le_div_right hc2⟩
    obtain ⟨x, hx⟩ := this
    rw [hx, hfr c hc1 x hx]
  refine ⟨⟨?_, ?_⟩, h1, h2⟩
  · intro c hc
    have hc' : c < hi + 1 := by simpa using hc
    by_cases hg : c < G
    · rw [h1 c hg]; exact h.present c (by simpa using hg)
    · exact ⟨_, h2 c (by omega) (by omega), by simp⟩
  · intro c hc ch hch
    have hc' : hi + 1 ≤ c := by simpa using hc
    by_cases hg : G ≤ c
    · exact hfr c hg ch hch
    · omega

theorem used_zero (i : Nat) (hi : i < 512) : used (List.replicate 8 (0 : BitVec 64)) i = false := by
  unfold used
  cases h : (List.replicate 8 (0 : BitVec 64))[i / 64]? with
  | none =>
    rw [List.getElem?_eq_none_iff] at h
    simp only [List.length_replicate] at h
    omega
  | some w =>
    have := List.mem_of_getElem? h
    rw [List.mem_replicate] at this
    simp [this.2]

theorem max_pos_iff {free : Nat → Bool} {lo hi : Nat} {s : Summary} (h : Exact free lo hi s) :
    s.max > 0 ↔ ∃ p, lo ≤ p ∧ p < hi ∧ free p = true := by
  constructor
  · intro hm
    obtain ⟨a, a1, a2, a3⟩ := h.max.1
    exact ⟨a, a1, by omega, a3 a (Nat.le_refl _) (by omega)⟩
  · rintro ⟨p, p1, p2, p3⟩
    have := h.max.2 1 ⟨p, p1, by omega, fun i h1 h2 => by
      have : i = p := by omega
      rw [this]; exact p3⟩
    omega

/-- `page_alloc_grow` on the `m` chunks following the first `G`. -/
theorem pageAllocGrow_spec {G m : Nat} {pa : PA} (h : Inv (fun c => decide (c < G)) pa) (hm : 0 < m) :
    ∃ pa', Inv (fun c => decide (c < G + m)) pa' ∧
      (∀ p, pageFree (fun c => decide (c < G + m)) pa' p =
        if 512 * G ≤ p ∧ p < 512 * (G + m) then true else pageFree (fun c => decide (c < G)) pa p) ∧
      pageAllocGrow pa (arenaBase + 4194304 * G) (4194304 * m) =
        if (∃ p, p < 2097152 ∧ pageFree (fun c => decide (c < G + m)) pa' p = true) then .ok pa' else .abort := by
  have c1 : chunkIndex (arenaBase + 4194304 * G) = G := by unfold chunkIndex chunkBits pageSize; omega
  have c2 : chunkIndex (arenaBase + 4194304 * G + 4194304 * m - 1) = G + m - 1 := by
    unfold chunkIndex chunkBits pageSize; omega
  obtain ⟨g1, g2, g3⟩ := growChunks_ok (lo := G) (hi := G + m - 1) h.chunks rfl (by omega)
  rw [show G + m - 1 + 1 = G + m by omega] at g1
  have hpf : ∀ p, pageFree (fun c => decide (c < G + m)) (growChunks pa G (G + m - 1)) p =
        if 512 * G ≤ p ∧ p < 512 * (G + m) then true else pageFree (fun c => decide (c < G)) pa p := by
    intro p
    simp only [pageFree]
    by_cases hp : 512 * G ≤ p ∧ p < 512 * (G + m)
    · rw [if_pos hp, g3 (p / 512) (by omega) (by omega)]
      dsimp only
      rw [used_zero _ (Nat.mod_lt _ (by decide))]
      simp only [Bool.not_false, Bool.and_true, decide_eq_true_eq]
      omega
    · rw [if_neg hp]
      by_cases hlt : p / 512 < G
      · rw [g2 _ hlt]
        simp [hlt, show p / 512 < G + m by omega]
      · simp [hlt, show ¬ p / 512 < G + m by omega]
  obtain ⟨pa', e1, e2, e3⟩ := summaryUpdate_spec (grown := fun c => decide (c < G + m))
    (old := pageFree (fun c => decide (c < G)) pa) (growChunks pa G (G + m - 1))
    (arenaBase + 4194304 * G) (4194304 * m) G (G + m - 1) c1 c2 (by omega) g1
    (fun c h1 h2 => by simp only [decide_eq_true_eq]; omega) h.sums
    (fun p hp => by rw [hpf p, if_neg (by omega)])
  have hpf' : ∀ p, pageFree (fun c => decide (c < G + m)) pa' p =
      pageFree (fun c => decide (c < G + m)) (growChunks pa G (G + m - 1)) p := fun p => by simp only [pageFree, e2]
  refine ⟨pa', e3, fun p => by rw [hpf' p, hpf p], ?_⟩
  unfold pageAllocGrow
  simp only
  rw [c1, c2, e1, Res.bind_ok]
  have hx := max_pos_iff (e3.sums 0 (by omega) 0)
  rw [show levelPages 0 = 2097152 from rfl, Nat.zero_mul, Nat.zero_add, Nat.one_mul] at hx
  by_cases hmx : (pa'.sum 0 0).max > 0
  · rw [if_pos hmx, if_pos]
    obtain ⟨p, _, p2, p3⟩ := hx.1 hmx
    exact ⟨p, p2, p3⟩
  · rw [if_neg hmx, if_neg]
    rintro ⟨p, p2, p3⟩
    exact hmx (hx.2 ⟨p, Nat.zero_le _, p2, p3⟩)

/-- Bytes `mheap_sys_alloc` reserves for a request of `size` bytes. -/
theorem alignUp_le (n a : Nat) (ha : 0 < a) : n ≤ alignUp n a ∧ alignUp n a % a = 0 := by
  unfold alignUp
  constructor
  · have h1 := Nat.div_add_mod (n + a - 1) a
    have h2 := Nat.mod_lt (n + a - 1) ha
    rw [Nat.mul_comm]
    omega
  · exact Nat.mul_mod_left _ _

theorem ensureArena_spec {G total size : Nat} {h : Heap} {live : List Span} (H : HInv G total h live) (hs : 0 < size) :
    ∃ h1 total', ensureArena h osGrants size = .ok h1 ∧ HInv G total' h1 live ∧ 0 < total' ∧
      4194304 * G + size ≤ total' ∧ h1.pa = h.pa ∧ h1.spans = h.spans ∧
      ((total' = total ∧ 4194304 * G + size ≤ total) ∨
        (total' = total + alignUp size arenaSize ∧ total < 4194304 * G + size)) := by
  obtain ⟨rest, hr⟩ := H.hints
  have hA := alignUp_le size arenaSize (by decide)
  have hroom := H.room
  have halign := H.align
  have hsys : sysAlloc h osGrants size = .ok (arenaBase + total, alignUp size arenaSize, { h with
      hints := (arenaBase + total + alignUp size arenaSize) :: rest
      arenas := fun i => if arenaIndex (arenaBase + total) ≤ i ∧
        i ≤ arenaIndex (arenaBase + total + alignUp size arenaSize - 1) then true else h.arenas i }) := by
    unfold sysAlloc
    simp only
    rw [hr]
    rfl
  generalize hS : alignUp size arenaSize = S at *
  have hnew : ∀ fin cursor, fin = arenaBase + (total + S) → cursor = arenaBase + 4194304 * G →
      HInv G (total + S) { h with
        hints := (arenaBase + total + S) :: rest
        arenas := fun i => if arenaIndex (arenaBase + total) ≤ i ∧
          i ≤ arenaIndex (arenaBase + total + S - 1) then true else h.arenas i
        fin := fin, cursor := cursor } live := by
    intro fin cursor hf hc
    refine ⟨⟨rest, ?_⟩, ?_, Or.inr ⟨by omega, hf, hc⟩, by omega, ?_, H.pa, H.wf, H.nodup, H.spans, H.free⟩
    · show (arenaBase + total + S) :: rest = _
      rw [Nat.add_assoc]
    · unfold arenaSize at *; omega
    · intro i
      have ha := H.arenas i
      show (if _ then _ else _) = true ↔ _
      unfold arenaIndex arenaSize at *
      by_cases hi : (arenaBase + total - arenaBase) / 67108864 ≤ i ∧ i ≤ (arenaBase + total + S - 1 - arenaBase) / 67108864
      · rw [if_pos hi]; simp only [true_iff]; omega
      · rw [if_neg hi, ha]; omega
  unfold ensureArena
  rcases H.cur with ⟨h1, h2, h3, h4⟩ | ⟨h1, h2, h3⟩
  · rw [h2, h3, if_neg (by omega), if_pos (by omega), hsys, Res.bind_ok]
    simp only
    rw [if_neg (by unfold arenaBase; omega), if_neg (by unfold arenaBase; omega)]
    refine ⟨_, total + S, rfl, hnew _ _ (by omega) (by rw [h1, h4]), by omega, by omega, rfl, rfl, Or.inr ⟨rfl, by omega⟩⟩
  · rw [if_neg (by omega)]
    by_cases hroom2 : h.fin - h.cursor < size
    · rw [if_pos hroom2, hsys, Res.bind_ok]
      simp only
      rw [if_neg (by unfold arenaBase; omega), if_pos h2.symm]
      refine ⟨_, total + S, rfl, hnew _ _ (by omega) h3, by omega, by omega, rfl, rfl, Or.inr ⟨rfl, by omega⟩⟩
    · rw [if_neg hroom2]
      exact ⟨h, total, rfl, H, h1, by omega, rfl, rfl, Or.inl ⟨rfl, by omega⟩⟩

theorem grow_spec {G total n : Nat} {h : Heap} {live : List Span} (H : HInv G total h live) (hn : 0 < n) :
    ∃ h1 m total', n ≤ 512 * m ∧ 512 * m = alignUp n 512 ∧ HInv (G + m) total' h1 live ∧
      ((total' = total ∧ 4194304 * (G + m) ≤ total) ∨
        (total' = total + alignUp (alignUp n 512 * 8192) arenaSize)) ∧
      grow h osGrants n =
        if (∃ p, p < 2097152 ∧ pageFree (fun c => decide (c < G + m)) h1.pa p = true) then .ok h1 else .abort := by
  have hA := alignUp_le n 512 (by decide)
  obtain ⟨m, hm⟩ : ∃ m, alignUp n 512 = 512 * m := ⟨alignUp n 512 / 512, by omega⟩
  have hm0 : 0 < m := by omega
  obtain ⟨h1, total', e1, H1, t1, t2, t3, t4, t5⟩ := ensureArena_spec H (size := 4194304 * m) (by omega)
  obtain ⟨pa', i1, i2, i3⟩ := pageAllocGrow_spec H1.pa hm0
  have hcur : h1.cursor = arenaBase + 4194304 * G := by
    rcases H1.cur with ⟨x, _⟩ | ⟨_, _, x⟩
    · omega
    · exact x
  have hsz : alignUp n chunkBits * pageSize = 4194304 * m := by
    unfold chunkBits pageSize; rw [hm]; omega
  refine ⟨{ h1 with pa := pa', cursor := h1.cursor + 4194304 * m }, m, total', by omega, hm.symm, ?_, ?_, ?_⟩
  · refine ⟨H1.hints, H1.align, Or.inr ⟨t1, ?_, ?_⟩, by omega, H1.arenas, i1, ?_, H1.nodup, H1.spans, ?_⟩
    · rcases H1.cur with ⟨x, _⟩ | ⟨_, x, _⟩
      · omega
      · exact x
    · show h1.cursor + 4194304 * m = _
      rw [hcur]; omega
    · intro s hs
      obtain ⟨w1, w2, w3⟩ := H1.wf s hs
      exact ⟨w1, w2, by omega⟩
    · intro p
      show pageFree _ pa' p = true ↔ p < 512 * (G + m) ∧ h1.spans p = none
      rw [i2 p]
      by_cases hp : 512 * G ≤ p ∧ p < 512 * (G + m)
      · rw [if_pos hp]
        simp only [true_iff]
        refine ⟨hp.2, ?_⟩
        cases hsp : h1.spans p with
        | none => rfl
        | some s =>
          obtain ⟨q1, q2, q3⟩ := (H1.spans p s).1 hsp
          have := (H1.wf s q1).2.2
          omega
      · rw [if_neg hp, H1.free p]
        constructor
        · intro ⟨x, y⟩; exact ⟨by omega, y⟩
        · intro ⟨x, y⟩; exact ⟨by omega, y⟩
  · rw [hm, show 512 * m * 8192 = 4194304 * m by omega]
    rcases t5 with ⟨x, y⟩ | ⟨x, y⟩
    · exact Or.inl ⟨x, by omega⟩
    · exact Or.inr x
  · unfold grow
    simp only
    rw [hsz, e1, Res.bind_ok, hcur, i3]
    by_cases hx : ∃ p, p < 2097152 ∧ pageFree (fun c => decide (c < G + m)) pa' p = true
    · rw [if_pos hx, if_pos hx]; rfl
    · rw [if_neg hx, if_neg hx]; rfl

/-! ### allocation and release of spans -/

theorem arena_page {G total : Nat} {h : Heap} {live : List Span} (H : HInv G total h live) {p j n : Nat} {b : Nat}
    (hb : b = arenaBase + p * 8192) (hj : j < n) (hp : p + n ≤ 512 * G) : hasArena h (b + j * pageSize) = true := by
  rw [hasArena_iff H]
  have := H.room
  unfold pageSize
  omega

/-- Marking `n` free pages as used and registering the span. -/
theorem alloc_finish {G total p n : Nat} {h : Heap} {pa' : PA} {live : List Span} (H : HInv G total h live) (hn : 0 < n)
    (hf : AllFree (pageFree (fun c => decide (c < G)) h.pa) p n) (hi : Inv (fun c => decide (c < G)) pa')
    (hpf : ∀ q, pageFree (fun c => decide (c < G)) pa' q =
      if p ≤ q ∧ q < p + n then false else pageFree (fun c => decide (c < G)) h.pa q) :
    ∃ h', setSpans { h with pa := pa' } ⟨arenaBase + p * 8192, n⟩ n 0 = .ok h' ∧
      HInv G total h' (⟨arenaBase + p * 8192, n⟩ :: live) ∧ h'.cursor = h.cursor := by
  have hfree : ∀ q, p ≤ q → q < p + n → q < 512 * G ∧ h.spans q = none := fun q h1 h2 => (H.free q).1 (hf q h1 h2)
  have hend : p + n ≤ 512 * G := by
    have := (hfree (p + n - 1) (by omega) (by omega)).1
    omega
  have hpage : (Span.mk (arenaBase + p * 8192) n).page = p := pageOf_page p
  obtain ⟨f, e1, e2⟩ := setSpans_spec ⟨arenaBase + p * 8192, n⟩ p rfl n 0 { h with pa := pa' }
    (fun j _ h2 => arena_page H rfl (by omega) hend) (fun j _ h2 => (hfree (p + j) (by omega) (by omega)).2)
  rw [Nat.add_zero] at e2
  refine ⟨_, e1, ⟨H.hints, H.align, H.cur, H.room, H.arenas, hi, ?_, ?_, ?_, ?_⟩, rfl⟩
  · intro s hs
    rcases List.mem_cons.1 hs with rfl | hs
    · rw [hpage]; exact ⟨hn, rfl, hend⟩
    · exact H.wf s hs
  · rw [List.nodup_cons]
    refine ⟨fun hmem => ?_, H.nodup⟩
    have := (H.spans p ⟨arenaBase + p * 8192, n⟩).2 ⟨hmem, by rw [hpage]; exact Nat.le_refl _, by rw [hpage]; simp only; omega⟩
    rw [(hfree p (Nat.le_refl _) (by omega)).2] at this
    cases this
  · intro q s
    show f q = some s ↔ _
    rw [e2 q]
    dsimp only
    by_cases hq : p ≤ q ∧ q < p + n
    · rw [if_pos hq, List.mem_cons]
      constructor
      · intro h1; cases h1
        rw [hpage]; exact ⟨Or.inl rfl, hq⟩
      · rintro ⟨h1 | h1, h2⟩
        · rw [h1]
        · have := (H.spans q s).2 ⟨h1, h2⟩
          rw [(hfree q hq.1 hq.2).2] at this
          cases this
    · rw [if_neg hq, H.spans q s, List.mem_cons]
      constructor
      · intro ⟨h1, h2⟩; exact ⟨Or.inr h1, h2⟩
      · rintro ⟨h1 | h1, h2⟩
        · rw [h1, hpage] at h2; exact absurd h2 hq
        · exact ⟨h1, h2⟩
  · intro q
    show pageFree _ pa' q = true ↔ q < 512 * G ∧ f q = none
    rw [hpf q, e2 q]
    dsimp only
    by_cases hq : p ≤ q ∧ q < p + n
    · rw [if_pos hq, if_pos hq]; simp
    · rw [if_neg hq, if_neg hq]; exact H.free q

theorem hintAddr_eq {G total : Nat} {h : Heap} {live : List Span} (H : HInv G total h live) :
    hintAddr h = arenaBase + total := by
  obtain ⟨rest, hr⟩ := H.hints
  unfold hintAddr; rw [hr]; rfl

theorem searchEnd_pos (a : Nat) : 0 < searchEnd a := by unfold searchEnd; omega

/-- All outcomes of `mheap_alloc_span`. -/
theorem allocSpan_cases {G total n : Nat} {h : Heap} {live : List Span} (H : HInv G total h live) (hn : 0 < n) :
    (HasRun (pageFree (fun c => decide (c < G)) h.pa) 0 (searchEnd (arenaBase + total) * 2097152) n →
      ∃ p h', allocSpan h osGrants n = .ok (⟨arenaBase + p * 8192, n⟩, h') ∧
        HInv G total h' (⟨arenaBase + p * 8192, n⟩ :: live) ∧ h'.cursor = h.cursor) ∧
    (¬ HasRun (pageFree (fun c => decide (c < G)) h.pa) 0 (searchEnd (arenaBase + total) * 2097152) n →
      ∃ h1 m total', n ≤ 512 * m ∧ HInv (G + m) total' h1 live ∧
      ((total' = total ∧ 4194304 * (G + m) ≤ total) ∨
        (total' = total + alignUp (alignUp n 512 * 8192) arenaSize)) ∧
      ((allocSpan h osGrants n = .abort ∧
        (¬ (∃ p, p < 2097152 ∧ pageFree (fun c => decide (c < G + m)) h1.pa p = true) ∨
        ¬ HasRun (pageFree (fun c => decide (c < G + m)) h1.pa) 0 (searchEnd (arenaBase + total') * 2097152) n)) ∨
      ∃ p h', allocSpan h osGrants n = .ok (⟨arenaBase + p * 8192, n⟩, h') ∧
        HInv (G + m) total' h' (⟨arenaBase + p * 8192, n⟩ :: live) ∧
        ∃ q, q < 2097152 ∧ pageFree (fun c => decide (c < G + m)) h1.pa q = true)) := by
  have hf := pageAllocFind_spec H.pa (hint := hintAddr h) hn (by rw [hintAddr_eq H]; omega) false
  rw [hintAddr_eq H] at hf
  unfold allocSpan findOrGrow
  rw [if_neg (by omega), hintAddr_eq H]
  constructor
  · intro hrun
    obtain ⟨p, pa', e1, e2, e3, e4, e5⟩ := hf.2 hrun
    rw [e1, Res.bind_ok]
    dsimp only
    rw [Res.bind_ok]
    dsimp only
    obtain ⟨h', f1, f2, f3⟩ := alloc_finish H hn e3 e4 e5
    rw [f1, Res.bind_ok]
    exact ⟨p, h', rfl, f2, f3⟩
  · intro hno
    obtain ⟨h1, m, total', g1, g2, g3, g4, g5⟩ := grow_spec H hn
    refine ⟨h1, m, total', by omega, g3, g4, ?_⟩
    rw [hf.1 hno]
    rw [if_neg (by decide), Res.bind_ok]
    dsimp only
    rw [g5]
    by_cases hx : ∃ p, p < 2097152 ∧ pageFree (fun c => decide (c < G + m)) h1.pa p = true
    · rw [if_pos hx, Res.bind_ok]
      have hf2 := pageAllocFind_spec g3.pa (hint := hintAddr h1) hn (by rw [hintAddr_eq g3]; omega) true
      rw [hintAddr_eq g3] at hf2 ⊢
      by_cases hr : HasRun (pageFree (fun c => decide (c < G + m)) h1.pa) 0 (searchEnd (arenaBase + total') * 2097152) n
      · right
        obtain ⟨p, pa', e1, e2, e3, e4, e5⟩ := hf2.2 hr
        rw [e1, Res.bind_ok]
        dsimp only
        rw [Res.bind_ok]
        dsimp only
        obtain ⟨h', f1, f2, f3⟩ := alloc_finish g3 hn e3 e4 e5
        rw [f1, Res.bind_ok]
        exact ⟨p, h', rfl, f2, hx⟩
      · left
        rw [hf2.1 hr, if_pos rfl, Res.bind_abort, Res.bind_abort]
        exact ⟨rfl, Or.inr hr⟩
    · left
      rw [if_neg hx, Res.bind_abort, Res.bind_abort]
      exact ⟨rfl, Or.inl hx⟩

theorem freeSpan_spec {G total : Nat} {h : Heap} {live : List Span} {s : Span} (H : HInv G total h live) (hs : s ∈ live) :
    ∃ h', freeSpan h s = .ok h' ∧ HInv G total h' (live.erase s) ∧ h'.cursor = h.cursor := by
  obtain ⟨w1, w2, w3⟩ := H.wf s hs
  obtain ⟨pa', e1, e2, e3⟩ := chunksSet_spec H.pa s.page s.pages false w1 (fun c h1 h2 => by
    simp only [decide_eq_true_eq]; omega)
  obtain ⟨f, f1, f2⟩ := clearSpans_spec s s.page w2 s.pages 0 { h with pa := pa' }
    (fun j _ h2 => arena_page H w2 (by omega) w3) (fun j _ h2 => by
      rw [(H.spans (s.page + j) s).2 ⟨hs, by omega, by omega⟩]; simp)
  rw [Nat.add_zero] at f2
  unfold freeSpan
  rw [show pageSize = 8192 from rfl, w2, e1, Res.bind_ok, f1]
  refine ⟨_, rfl, ⟨H.hints, H.align, H.cur, H.room, H.arenas, e2, ?_, ?_, ?_, ?_⟩, rfl⟩
  · intro x hx; exact H.wf x (List.mem_of_mem_erase hx)
  · exact H.nodup.erase s
  · intro q x
    show f q = some x ↔ _
    rw [f2 q, H.nodup.mem_erase_iff]
    dsimp only
    by_cases hq : s.page ≤ q ∧ q < s.page + s.pages
    · rw [if_pos hq]
      constructor
      · intro h1; cases h1
      · rintro ⟨⟨h1, h2⟩, h3⟩
        have a := (H.spans q x).2 ⟨h2, h3⟩
        have b := (H.spans q s).2 ⟨hs, hq⟩
        rw [a] at b; cases b; exact absurd rfl h1
    · rw [if_neg hq, H.spans q x]
      constructor
      · rintro ⟨h1, h2⟩
        refine ⟨⟨?_, h1⟩, h2⟩
        rintro rfl; exact hq h2
      · rintro ⟨⟨h1, h2⟩, h3⟩; exact ⟨h2, h3⟩
  · intro q
    show pageFree _ pa' q = true ↔ q < 512 * G ∧ f q = none
    rw [e3 q, f2 q]
    dsimp only
    by_cases hq : s.page ≤ q ∧ q < s.page + s.pages
    · rw [if_pos hq, if_pos hq]; simp; omega
    · rw [if_neg hq, if_neg hq]; exact H.free q

theorem pageFree_init (p : Nat) : pageFree (fun c => decide (c < 0)) init.pa p = false := by
  simp [pageFree]

theorem HInv_init : HInv 0 0 init [] := by
  refine ⟨⟨_, rfl⟩, rfl, Or.inl ⟨rfl, rfl, rfl, rfl⟩, by omega, ?_, ⟨⟨?_, ?_⟩, ?_⟩, ?_, ?_, ?_, ?_⟩
  · intro i; simp [init]
  · intro c hc; simp at hc
  · intro c _ ch hch; simp [init] at hch
  · intro level hl i
    refine exact_none ?_ (fun p _ _ => pageFree_init p)
    exact Nat.mul_le_mul_right _ (by omega)
  · intro s hs; cases hs
  · exact List.nodup_nil
  · intro p s; simp [init]
  · intro p; rw [pageFree_init]; simp

theorem Reach.inv {h : Heap} {live : List Span} (r : Reach h live) : ∃ G total, HInv G total h live := by
  induction r with
  | init => exact ⟨0, 0, HInv_init⟩
  | @alloc h live n s h' _ e ih =>
    obtain ⟨G, total, H⟩ := ih
    have hn : 0 < n := by
      rcases Nat.eq_zero_or_pos n with h0 | h0
      · unfold allocSpan at e; rw [if_pos h0] at e; cases e
      · exact h0
    have hc := allocSpan_cases H hn
    by_cases hr : HasRun (pageFree (fun c => decide (c < G)) h.pa) 0 (searchEnd (arenaBase + total) * 2097152) n
    · obtain ⟨p, h2, e1, e2, _⟩ := hc.1 hr
      rw [e] at e1; cases e1
      exact ⟨G, total, e2⟩
    · obtain ⟨h1, m, total', _, _, _, (⟨x, _⟩ | ⟨p, h2, e1, e2, _⟩)⟩ := hc.2 hr
      · rw [e] at x; cases x
      · rw [e] at e1; cases e1
        exact ⟨_, _, e2⟩
  | @free h live s h' _ hs e ih =>
    obtain ⟨G, total, H⟩ := ih
    obtain ⟨h2, e1, e2, _⟩ := freeSpan_spec H hs
    rw [e] at e1; cases e1
    exact ⟨G, total, e2⟩

end Nature.PageAlloc
