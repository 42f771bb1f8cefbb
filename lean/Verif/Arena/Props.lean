import Verif.Arena.Lemmas
/-
C92: the memory an arena hands out is the program's own.

Whatever is allocated from an arena, given back to it, and allocated again, the regions in use do
not overlap, are aligned and lie in memory from the heap; and `reset` and `deinit` give back each
block exactly once.
-/
namespace Nature.Arena

/-- What can be done with an arena that is made while the heap has given `held0`: `Hist held0 s
live` holds if there is a history after which the arena is `s` and the regions `live` are in use.

`alloc` adds a region, `dealloc` of any address whatever takes out the region that begins there,
`reset` takes out all.  When memory is taken from the heap in a step, it is as `malloc` promises.

Sizes are less than 2^62, see `C92_overflow_counterexample`. -/
inductive Hist (held0 : List Region) : St → List Region → Prop
  | init {mem capacity a1 a2 s r1 r2} : init mem held0 capacity a1 a2 = some s →
      s.held = r2 :: r1 :: held0 → Given held0 r1 → Given (r1 :: held0) r2 → Hist held0 s []
  | alloc {s live size a p s'} : Hist held0 s live → size.toInt < 2 ^ 62 →
      alloc s size a = some (p, s') → (∀ r, s'.held = r :: s.held → Given s.held r) →
      Hist held0 s' (⟨p.toNat, size.toNat⟩ :: live)
  | dealloc {s live} (p : W) : Hist held0 s live →
      Hist held0 (dealloc s p) (live.filter fun r => r.start != p.toNat)
  | reset {junk s live s'} : Hist held0 s live → reset junk s = some s' → Hist held0 s' []

/-- A heap: regions apart from each other, none empty. -/
structure Heap (held : List Region) : Prop where
  apart : held.Pairwise Region.apart
  some : ∀ h ∈ held, 0 < h.len

theorem size_nat {size : W} (h0 : size.sle 0 = false) (h : size.toInt < 2 ^ 62) :
    0 < size.toNat ∧ size.toNat < 2 ^ 62 := by
  have h1 : 0 < size.toInt := by
    have : ¬ size.toInt ≤ (0 : W).toInt := by
      rw [← BitVec.sle_iff_toInt_le, h0]; simp
    simpa using this
  rw [BitVec.toInt_eq_toNat_cond] at h h1
  have := size.isLt
  split at h <;> omega

theorem newCap_nat {size bs : W} (h1 : size.toNat < 2 ^ 62) (h2 : bs.toNat ≤ 2 ^ 62) :
    (if bs.slt size then size else bs).toNat ≤ 2 ^ 62 ∧
      size.toNat ≤ (if bs.slt size then size else bs).toNat := by
  rw [slt_nat (by omega) (by omega)]
  by_cases h : bs.toNat < size.toNat
  · simp only [h, decide_true, if_true]; omega
  · simp only [h, decide_false, Bool.false_eq_true, if_false]; omega

theorem blockNew_given {mem mem' : W → Hdr} {held held' : List Region} {cap a : W}
    (hcap : cap.toNat ≤ 2 ^ 62) (h : blockNew mem held cap a = some (mem', held')) :
    held' = ⟨a.toNat, 24 + cap.toNat⟩ :: held := by
  have h24 : (sizeofBlock + cap).toNat = 24 + cap.toNat := by
    have h24 : sizeofBlock.toNat = 24 := rfl
    rw [BitVec.toNat_add, h24]; omega
  unfold blockNew at h
  simp only [h24] at h
  split at h
  · cases h
  · simp only [Option.some.injEq, Prod.mk.injEq] at h
    exact h.2.symm

theorem alloc_inv {held0 s live rb} (h : Core held0 s live rb) {size a p : W} {s' : St}
    (hs : size.toInt < 2 ^ 62) (ha : alloc s size a = some (p, s'))
    (hg : ∀ r, s'.held = r :: s.held → Given s.held r) :
    ∃ rb off, Inv held0 s' (⟨p.toNat, size.toNat⟩ :: live) rb off := by
  unfold alloc at ha
  split at ha
  · cases ha
  rename_i h0
  obtain ⟨hs1, hs2⟩ := size_nat (by simpa using h0) hs
  obtain ⟨older, hrb⟩ := h.cur
  have hcur : s.current ∈ rb := by rw [hrb]; simp
  obtain ⟨c1, c2, c3, c4⟩ := h.block _ hcur
  generalize hb : blockAlloc s.mem s.current size = q at ha
  obtain ⟨q, mem⟩ := q
  simp only at ha
  split at ha
  · rename_i hq
    simp only [Option.some.injEq, Prod.mk.injEq] at ha
    obtain ⟨rfl, rfl⟩ := ha
    obtain ⟨off, hi⟩ := blockAlloc_ok h hs1 hs2 hb hq
    exact ⟨rb, off, hi⟩
  · rename_i hq
    simp only [ne_eq, Decidable.not_not] at hq
    have hmem : mem = s.mem := by
      have := (blockAlloc_fail (mem := s.mem) (b := s.current) (size := size)
        (by rw [hb]; exact hq) c1 c3 c4 hs2).1
      rw [hb] at this
      exact this
    subst hmem
    obtain ⟨hn1, hn2⟩ := newCap_nat hs2 h.bs.1
    generalize (if s.blockSize.slt size then size else s.blockSize) = cap at ha hn1 hn2
    cases hbn : blockNew s.mem s.held cap a with
    | none => rw [hbn] at ha; cases ha
    | some q =>
      obtain ⟨mem1, held1⟩ := q
      rw [hbn] at ha
      simp only at ha
      have hheld := blockNew_given hn1 hbn
      generalize hb2 : blockAlloc (set mem1 s.current { mem1 s.current with next := a }) a size = q2
        at ha
      obtain ⟨p2, mem2⟩ := q2
      simp only at ha
      split at ha
      · cases ha
      · rename_i hp2
        simp only [Option.some.injEq, Prod.mk.injEq] at ha
        obtain ⟨rfl, rfl⟩ := ha
        have hcore := newBlock_ok h hn1 (hg _ hheld) hbn
        obtain ⟨off, hi⟩ := blockAlloc_ok hcore hs1 hs2 hb2 hp2
        exact ⟨_, off, hi⟩

theorem filter_blocks {held0 s live rb} (h : Core held0 s live rb) (bs : List W)
    (hbs : ∀ b ∈ bs, b ∈ rb) :
    s.held.filter (fun r => bs.all fun b => r.start != b.toNat) =
      (rb.filter (fun b => !bs.contains b)).map (blk s.mem) ++ ⟨s.self.toNat, 40⟩ :: held0 := by
  have hst := core_starts h
  have hst' := hst
  rw [h.held, List.pairwise_append] at hst'
  rw [h.held, List.filter_append, List.filter_map]
  congr 1
  · congr 1
    apply List.filter_congr
    intro b hb
    simp only [Function.comp, blk]
    rw [Bool.eq_iff_iff]
    simp only [List.all_eq_true, bne_iff_ne, ne_eq, Bool.not_eq_true', List.contains_eq_mem,
      decide_eq_false_iff_not]
    constructor
    · intro hall hmem
      exact hall b hmem rfl
    · intro hn c hc he
      have : b = c := BitVec.eq_of_toNat_eq he
      exact hn (this ▸ hc)
  · rw [List.filter_eq_self]
    intro r hr
    simp only [List.all_eq_true, bne_iff_ne, ne_eq]
    intro b hb he
    exact hst'.2.2 (blk s.mem b) (List.mem_map.2 ⟨b, hbs b hb, rfl⟩) r hr he.symm

theorem reset_core {held0 s live rb} (h : Core held0 s live rb) (junk : W → Hdr) :
    ∃ s' b off, reset junk s = some s' ∧ Inv held0 s' [] [b] off := by
  have hnd := core_nodup h
  have hl := h.links
  have hlen : rb.length ≤ s.held.length := by rw [h.held]; simp
  cases hr : rb.reverse with
  | nil =>
    obtain ⟨older, hrb⟩ := h.cur
    rw [hrb] at hr
    simp at hr
  | cons b bs =>
    have hbsl : bs.length + 1 = rb.length := by
      have := congrArg List.length hr
      simpa using this.symm
    rw [hr] at hl
    obtain ⟨hhead, hl⟩ := hl
    have hrb : rb = bs.reverse ++ [b] := by
      have := congrArg List.reverse hr
      simpa using this
    have hbsub : ∀ c ∈ bs, c ∈ rb := by intro c hc; rw [hrb]; simp [hc]
    have hb : b ∈ rb := by rw [hrb]; simp
    have hnd2 : b ∉ bs ∧ bs.Nodup := by
      have h1 : rb.reverse.Nodup := by
        have h2 : rb.reverse.Pairwise (fun a b => b ≠ a) := List.pairwise_reverse.2 hnd
        exact h2.imp Ne.symm
      rw [hr, List.nodup_cons] at h1
      exact h1
    obtain ⟨mem', he, ho⟩ := freeAll_ok junk bs s.held.length s.mem s.held (s.mem b).next hl
      (by omega) hnd2.2 (by
        intro c hc
        refine ⟨(h.block c (hbsub c hc)).1, blk s.mem c, ?_, rfl⟩
        rw [h.held]
        simp only [List.mem_append, List.mem_map]
        exact .inl ⟨c, hbsub c hc, rfl⟩)
    have hfil : rb.filter (fun c => !bs.contains c) = [b] := by
      rw [hrb, List.filter_append]
      have h1 : bs.reverse.filter (fun c => !bs.contains c) = [] := by
        rw [List.filter_eq_nil_iff]
        intro c hc
        simp at hc
        simp [hc]
      rw [h1]
      simp [hnd2.1]
    rw [filter_blocks h bs hbsub, hfil] at he
    obtain ⟨c1, c2, c3, c4⟩ := h.block b hb
    have hmb : (mem' b) = s.mem b := ho b hnd2.1
    have hheld : ([b].map (blk s.mem) ++ (⟨s.self.toNat, 40⟩ : Region) :: held0).Sublist s.held := by
      rw [h.held, hrb]
      simp only [List.map_append, List.append_assoc]
      exact List.sublist_append_right _ _
    refine ⟨{ s with mem := set mem' s.head { mem' s.head with next := 0, used := 0 }
                     held := [b].map (blk s.mem) ++ (⟨s.self.toNat, 40⟩ : Region) :: held0
                     current := s.head, last := 0, lastSize := 0 }, b, 0,
      by
        unfold reset
        subst hhead
        rw [he], ⟨⟨⟨[], by simp [hhead]⟩, ?_, ?_, ?_, ?_, ?_, h.bs,
      ?_, .nil⟩, ?_, .inl ⟨rfl, rfl⟩, ?_⟩⟩
    · simp only [List.reverse_cons, List.reverse_nil, List.nil_append]
      exact ⟨hhead, by simp [Links, hhead]⟩
    · simp only [List.map_cons, List.map_nil, List.cons_append, List.nil_append, blk, hhead,
        set_same, hmb]
    · exact h.pair.sublist hheld
    · intro x hx
      exact h.pos x (hheld.subset hx)
    · intro c hc
      simp only [List.mem_singleton] at hc
      subst hc
      simp only [hhead, set_same, hmb]
      exact ⟨c1, c2, c3, by simp⟩
    · intro r hr; cases hr
    · simp
    · intro r hr; cases hr

theorem hist_inv {held0 s live} (hh : Heap held0) (h : Hist held0 s live) :
    ∃ rb off, Inv held0 s live rb off := by
  induction h with
  | @init mem capacity a1 a2 s r1 r2 hi hheld g1 g2 =>
    unfold init at hi
    split at hi
    · cases hi
    rename_i ha1
    simp only at hi
    have hbs : 0 < (if capacity.sle 0 then (4096 : W) else capacity).toNat ∧
        (if capacity.sle 0 then (4096 : W) else capacity).toNat < 2 ^ 63 := by
      split
      · decide
      · rename_i hc
        have h1 : 0 < capacity.toInt := by
          have : ¬ capacity.toInt ≤ (0 : W).toInt := by
            rw [← BitVec.sle_iff_toInt_le]; simpa using hc
          simpa using this
        rw [BitVec.toInt_eq_toNat_cond] at h1
        have := capacity.isLt
        split at h1 <;> omega
    generalize (if capacity.sle 0 then (4096 : W) else capacity) = bs at hi hbs
    unfold blockNew at hi
    simp only at hi
    have h24 : (sizeofBlock + bs).toNat = 24 + bs.toNat := by
      have h24 : sizeofBlock.toNat = 24 := rfl
      rw [BitVec.toNat_add, h24]; omega
    split at hi
    · cases hi
    rename_i q mem2 held2 hq
    split at hq
    · cases hq
    simp only [Option.some.injEq, Prod.mk.injEq] at hq
    obtain ⟨rfl, rfl⟩ := hq
    simp only [Option.some.injEq] at hi
    subst hi
    have h40 : sizeofArena.toNat = 40 := rfl
    simp only [h24, h40, List.cons.injEq, and_true] at hheld
    obtain ⟨rfl, rfl⟩ := hheld
    obtain ⟨f1, f2, f3, f4⟩ := g1
    obtain ⟨e1, e2, e3, e4⟩ := g2
    simp only at f1 f2 f3 e1 e2 e3
    refine ⟨[a2], 0, ⟨⟨⟨[], rfl⟩, ?_, ?_, ?_, ?_, ?_, ?_, ?_, .nil⟩, ?_, .inl ⟨rfl, rfl⟩, ?_⟩⟩
    · simp [Links]
    · simp [blk, h24, h40]
    · simp only [h24, h40]
      exact .cons e4 (.cons f4 hh.apart)
    · intro x hx
      simp only [List.mem_cons] at hx
      rcases hx with rfl | rfl | hx
      · simp only [h24]; omega
      · simp only [h40]; omega
      · exact hh.some x hx
    · intro b hb
      simp only [List.mem_singleton] at hb
      subst hb
      simp only [set_same]
      exact ⟨e1, e2, e3, by simp⟩
    · simp only
      omega
    · intro r hr; cases hr
    · simp
    · intro r hr; cases hr
  | alloc _ hs ha hg ih =>
    obtain ⟨rb, off, hi⟩ := ih
    exact alloc_inv hi.toCore hs ha hg
  | dealloc p _ ih =>
    obtain ⟨rb, off, hi⟩ := ih
    obtain ⟨off', h⟩ := dealloc_ok hi p
    exact ⟨rb, off', h⟩
  | @reset junk s live s' _ hr ih =>
    obtain ⟨rb, off, hi⟩ := ih
    obtain ⟨s2, rb', off', h1, h2⟩ := reset_core hi.toCore junk
    rw [h1] at hr
    cases hr
    exact ⟨_, off', h2⟩

/-- After any history the regions in use are aligned, do not overlap, and each lies in a region that
the heap has given, behind the 24 bytes the arena needs there itself.

Missing: allocations of 2^62 bytes or more (`C92_overflow_counterexample`). -/
theorem C92_sound_partial {held0 : List Region} {s : St} {live : List Region} (hh : Heap held0)
    (h : Hist held0 s live) :
    Sound s.held live ∧
      ∀ r ∈ live, ∃ g ∈ s.held, r.within ⟨g.start + 24, g.len - 24⟩ ∧ g ∉ held0 := by
  obtain ⟨rb, off, hi⟩ := hist_inv hh h
  have key : ∀ r ∈ live, ∃ g ∈ s.held, g.start + 24 ≤ r.start ∧ r.start + r.len ≤ g.start + g.len ∧
      24 ≤ g.len ∧ g ∉ held0 := by
    intro r hr
    obtain ⟨l1, l2, b, hb, l3, l4⟩ := hi.liv r hr
    obtain ⟨c1, c2, c3, c4⟩ := hi.block b hb
    have hmem : blk s.mem b ∈ rb.map (blk s.mem) := List.mem_map.2 ⟨b, hb, rfl⟩
    refine ⟨blk s.mem b, by rw [hi.held]; simp [hmem], l3, ?_, ?_, ?_⟩
    · simp only [blk]; omega
    · simp only [blk]; omega
    · intro hg
      have hst := core_starts hi.toCore
      rw [hi.held, List.pairwise_append] at hst
      exact hst.2.2 _ hmem _ (by simp [hg]) rfl
  refine ⟨⟨hi.apart, fun r hr => (hi.liv r hr).2.1, ?_⟩, ?_⟩
  · intro r hr
    obtain ⟨g, hg, h1, h2, h3, _⟩ := key r hr
    exact ⟨g, hg, by simp only [Region.within]; omega⟩
  · intro r hr
    obtain ⟨g, hg, h1, h2, h3, h4⟩ := key r hr
    exact ⟨g, hg, by simp only [Region.within]; omega, h4⟩

/-- After any history `reset` ends without freeing anything twice and leaves one block; and `deinit`
gives back all the arena has ever taken, each exactly once, so that the heap is as before the arena
was made. -/
theorem C92_given_back_partial {held0 : List Region} {s : St} {live : List Region} (hh : Heap held0)
    (h : Hist held0 s live) (junk : W → Hdr) :
    (∃ s' b a, reset junk s = some s' ∧ s'.held = b :: a :: held0) ∧
      deinit junk s = some held0 := by
  obtain ⟨rb, off, hi⟩ := hist_inv hh h
  have hc := hi.toCore
  constructor
  · obtain ⟨s', b, off', h1, h2⟩ := reset_core hc junk
    exact ⟨s', _, _, h1, by rw [h2.held]; rfl⟩
  · have hnd : rb.reverse.Nodup := by
      have h2 : rb.reverse.Pairwise (fun a b => b ≠ a) := List.pairwise_reverse.2 (core_nodup hc)
      exact h2.imp Ne.symm
    have hlen : rb.length ≤ s.held.length := by rw [hc.held]; simp
    obtain ⟨mem', he, _⟩ := freeAll_ok junk rb.reverse s.held.length s.mem s.held s.head hc.links
      (by simpa using hlen) hnd (by
        intro c hc'
        simp only [List.mem_reverse] at hc'
        refine ⟨(hc.block c hc').1, blk s.mem c, ?_, rfl⟩
        rw [hc.held]
        simp only [List.mem_append, List.mem_map]
        exact .inl ⟨c, hc', rfl⟩)
    have hfil : rb.filter (fun c => !rb.reverse.contains c) = [] := by
      rw [List.filter_eq_nil_iff]
      intro c hc
      simp [hc]
    rw [filter_blocks hc rb.reverse (by simp), hfil] at he
    have hst := core_starts hc
    rw [hc.held, List.pairwise_append, List.pairwise_cons] at hst
    have hkeep : held0.filter (fun r => r.start != s.self.toNat) = held0 := by
      rw [List.filter_eq_self]
      intro r hr
      have := hst.2.1.1 r hr
      simp only at this
      simp only [bne_iff_ne, ne_eq]
      exact fun h => this h.symm
    unfold deinit
    rw [he]
    simp [free, hkeep]

/-- After any history an allocation of a positive number of bytes succeeds, if `malloc` gives the
memory it may be asked for. -/
theorem C92_succeeds_partial {held0 : List Region} {s : St} {live : List Region} (hh : Heap held0)
    (h : Hist held0 s live) (size : W) (h0 : 0 < size.toInt) (h1 : size.toInt < 2 ^ 62) :
    ∃ n, ∀ a : W, Given s.held ⟨a.toNat, n⟩ → ∃ p s', alloc s size a = some (p, s') ∧
      (∀ r, s'.held = r :: s.held → r = ⟨a.toNat, n⟩) := by
  obtain ⟨rb, off, hi⟩ := hist_inv hh h
  have hc := hi.toCore
  have hsle : size.sle 0 = false := by
    rw [Bool.eq_false_iff, ne_eq, BitVec.sle_iff_toInt_le]
    simp only [BitVec.ofNat_eq_ofNat, BitVec.toInt_zero]
    omega
  obtain ⟨hs1, hs2⟩ := size_nat hsle h1
  obtain ⟨hn1, hn2⟩ := newCap_nat hs2 hc.bs.1
  refine ⟨24 + (if s.blockSize.slt size then size else s.blockSize).toNat, fun a hg => ?_⟩
  obtain ⟨older, hrb⟩ := hc.cur
  have hcur : s.current ∈ rb := by rw [hrb]; simp
  obtain ⟨c1, c2, c3, c4⟩ := hc.block _ hcur
  unfold alloc
  simp only [hsle, Bool.false_eq_true, if_false]
  generalize hb : blockAlloc s.mem s.current size = q
  obtain ⟨q, mem⟩ := q
  simp only
  by_cases hq : q = 0
  · subst hq
    have hmem : mem = s.mem := by
      have := (blockAlloc_fail (mem := s.mem) (b := s.current) (size := size)
        (by rw [hb]) c1 c3 c4 hs2).1
      rw [hb] at this
      exact this
    subst hmem
    generalize (if s.blockSize.slt size then size else s.blockSize) = cap at hg hn1 hn2
    have ha0 : a ≠ 0 := by
      rintro rfl
      have := hg.notNull
      simp at this
    simp only [ne_eq, not_true_eq_false, if_false]
    cases hbn : blockNew s.mem s.held cap a with
    | none =>
      unfold blockNew at hbn
      simp only [if_neg ha0] at hbn
      cases hbn
    | some q =>
      obtain ⟨mem1, held1⟩ := q
      have hheld := blockNew_given hn1 hbn
      have hcore := newBlock_ok hc hn1 (by simpa using hg) hbn
      obtain ⟨d1, d2, d3, d4⟩ := hcore.block a (by simp)
      simp only at d1 d2 d3 d4
      generalize hb2 : blockAlloc (set mem1 s.current { mem1 s.current with next := a }) a size = q2
      obtain ⟨p2, mem2⟩ := q2
      have hfresh : ∀ (m : W → Hdr), m = set mem1 s.current { mem1 s.current with next := a } →
          (m a).used = 0 ∧ (m a).capacity = cap := by
        rintro m rfl
        have hca : s.current ≠ a := by
          intro he
          have := hg.fresh (blk s.mem s.current) (by
            rw [hc.held]; simp only [List.mem_append, List.mem_map]; exact .inl ⟨_, hcur, rfl⟩)
          simp only [Region.apart, blk, he] at this
          omega
        rw [set_other _ _ (Ne.symm hca)]
        simp only [blockNew, ha0, if_false, Option.some.injEq, Prod.mk.injEq] at hbn
        rw [← hbn.1, set_same]
        exact ⟨rfl, rfl⟩
      obtain ⟨u1, u2⟩ := hfresh _ rfl
      have hp2 : p2 ≠ 0 := by
        rintro rfl
        have := (blockAlloc_fail (by rw [hb2]) d1 d3 d4 hs2).2
        rw [u1, u2] at this
        simp at this
        omega
      refine ⟨p2, { s with current := a, mem := mem2, held := held1, last := p2, lastSize := size },
        by simp only [hb2, if_neg hp2], ?_⟩
      intro r hr
      simp only [hheld, List.cons.injEq, and_true] at hr
      exact hr.symm
  · simp only [ne_eq, hq, not_false_eq_true, if_true, Option.some.injEq, Prod.mk.injEq]
    refine ⟨_, _, ⟨rfl, rfl⟩, ?_⟩
    intro r hr
    exact absurd (congrArg List.length hr) (by simp)

/-! ### the theorems say something -/

/-- Memory before. -/
def mem0 : W → Hdr := fun _ => ⟨0, 0, 0⟩

/-- Two allocations from an arena with blocks of 64 bytes, the second not fitting. -/
theorem twoBlocks : ∃ s, Hist [] s [⟨2072, 100⟩, ⟨1048, 60⟩] := by
  have h1 : Hist [] _ [] := .init (mem := mem0) (capacity := 64) (a1 := 512) (a2 := 1024) rfl rfl
    ⟨by decide, by decide, by decide, by simp⟩
    ⟨by decide, by decide, by decide, by simp [Region.apart, sizeofArena, sizeofBlock]⟩
  have h2 := h1.alloc (size := 60) (a := 0) (by decide) rfl (by
    intro r hr; exact absurd (congrArg List.length hr) (by simp))
  have h3 := h2.alloc (size := 100) (a := 2048) (by decide) rfl (by
    intro r hr
    simp only [List.cons.injEq, and_true] at hr
    subst hr
    refine ⟨by decide, by decide, by decide, ?_⟩
    intro h hh
    simp only [List.mem_cons, List.not_mem_nil, or_false] at hh
    rcases hh with rfl | rfl <;> (right; decide))
  exact ⟨_, h3⟩

example : ∃ s, Sound s.held [⟨2072, 100⟩, ⟨1048, 60⟩] ∧ deinit mem0 s = some [] := by
  obtain ⟨s, h⟩ := twoBlocks
  have hh : Heap [] := ⟨.nil, by simp⟩
  exact ⟨s, (C92_sound_partial hh h).1, (C92_given_back_partial hh h mem0).2⟩

/-! ### where it fails -/

/-- Allocating nearly 2^63 bytes from an arena of 64 bytes with 8 of them in use succeeds: the sum
overflows.  The region reaches far out of the block. -/
theorem C92_overflow_counterexample :
    ∃ s1 s2 s3 p q, init mem0 [] 64 512 1024 = some s1 ∧ alloc s1 8 0 = some (p, s2) ∧
      alloc s2 0x7fffffffffffffff 0 = some (q, s3) ∧
      ∀ g ∈ s3.held, ¬ (Region.mk q.toNat 0x7fffffffffffffff).within g := by
  refine ⟨_, _, _, _, _, rfl, rfl, rfl, ?_⟩
  intro g hg
  have : g = ⟨1024, 88⟩ ∨ g = ⟨512, 40⟩ := by simpa [sizeofArena, sizeofBlock] using hg
  rcases this with rfl | rfl <;> simp [Region.within]

end Nature.Arena
