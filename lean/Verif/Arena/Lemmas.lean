import Verif.Arena.Model
/-
The invariant of the arena and what keeps it.
-/
namespace Nature.Arena

theorem slt_nat {a b : W} (ha : a.toNat < 2 ^ 63) (hb : b.toNat < 2 ^ 63) :
    a.slt b = decide (a.toNat < b.toNat) := by
  have h1 : a.toInt = a.toNat := BitVec.toInt_eq_toNat_of_lt (by omega)
  have h2 : b.toInt = b.toNat := BitVec.toInt_eq_toNat_of_lt (by omega)
  simp only [BitVec.slt, h1, h2, Int.ofNat_lt]

theorem alignUp_nat {x : W} (h : x.toNat + 7 < 2 ^ 64) :
    (alignUp x).toNat = (x.toNat + 7) / 8 * 8 := by
  have e : alignUp x = ((x + 7#64) >>> 3) <<< 3 := by
    unfold alignUp ALIGN
    have h1 : x + 8 - 1 = x + 7#64 := by
      rw [BitVec.sub_eq_iff_eq_add]
      rw [BitVec.add_assoc]
      rfl
    show (x + 8 - 1) &&& ~~~(8#64 - 1#64) = _
    rw [h1]
    generalize x + 7#64 = y
    have hm : ~~~(8#64 - 1#64) = (BitVec.allOnes 64) <<< 3 := by decide
    rw [hm]
    apply BitVec.eq_of_getLsbD_eq
    intro i hi
    simp only [BitVec.getLsbD_and, BitVec.getLsbD_shiftLeft, BitVec.getLsbD_ushiftRight,
      BitVec.getLsbD_allOnes]
    by_cases h3 : i < 3
    · simp [h3]
    · have : 3 + (i - 3) = i := by omega
      have h4 : i - 3 < 64 := by omega
      simp [h3, hi, this, h4]
  rw [e]
  simp only [BitVec.toNat_shiftLeft, BitVec.toNat_ushiftRight, BitVec.toNat_add, Nat.shiftLeft_eq,
    Nat.shiftRight_eq_div_pow, BitVec.toNat_ofNat]
  have : (x.toNat + 7 % 2 ^ 64) % 2 ^ 64 = x.toNat + 7 := by omega
  rw [this]
  omega

@[simp] theorem set_same (m : W → Hdr) (a : W) (h : Hdr) : set m a h a = h := by simp [set]
theorem set_other (m : W → Hdr) {a x : W} (h : Hdr) (hx : x ≠ a) : set m a h x = m x := by
  simp [set, hx]

/-- The blocks reached from `p` are these. -/
def Links (mem : W → Hdr) : W → List W → Prop
  | p, [] => p = 0
  | p, b :: bs => p = b ∧ Links mem (mem b).next bs

theorem links_congr {m m' : W → Hdr} : ∀ {bs : List W} {p : W},
    (∀ b ∈ bs, (m' b).next = (m b).next) → Links m p bs → Links m' p bs
  | [], _, _, h => h
  | b :: bs, p, he, ⟨h1, h2⟩ => by
    refine ⟨h1, ?_⟩
    rw [he b (by simp)]
    exact links_congr (fun x hx => he x (by simp [hx])) h2

theorem links_snoc {m m' : W → Hdr} {a c : W} : ∀ {bs : List W} {p : W},
    (∀ b ∈ bs, (m' b).next = (m b).next) → (m' c).next = a → (m' a).next = 0 →
      Links m p (bs ++ [c]) → Links m' p (bs ++ [c, a])
  | [], p, _, h1, h2, h => by
    obtain ⟨h3, _⟩ := h
    exact ⟨h3, h1, h2⟩
  | b :: bs, p, he, h1, h2, h => by
    obtain ⟨h3, h4⟩ := h
    refine ⟨h3, ?_⟩
    rw [he b (by simp)]
    exact links_snoc (fun x hx => he x (by simp [hx])) h1 h2 h4

/-- The region of a block. -/
def blk (mem : W → Hdr) (b : W) : Region := ⟨b.toNat, 24 + (mem b).capacity.toNat⟩

/-- What holds of an arena whose heap held `held0` before, with blocks `rb`, the newest first. -/
structure Core (held0 : List Region) (s : St) (live : List Region) (rb : List W) : Prop where
  cur : ∃ older, rb = s.current :: older
  links : Links s.mem s.head rb.reverse
  held : s.held = rb.map (blk s.mem) ++ ⟨s.self.toNat, 40⟩ :: held0
  pair : s.held.Pairwise Region.apart
  pos : ∀ h ∈ s.held, 0 < h.len
  block : ∀ b ∈ rb, 0 < b.toNat ∧ b.toNat % 8 = 0 ∧
    b.toNat + (24 + (s.mem b).capacity.toNat) ≤ 2 ^ 62 ∧
    (s.mem b).used.toNat ≤ (s.mem b).capacity.toNat
  bs : s.blockSize.toNat ≤ 2 ^ 62 ∧ 0 < s.blockSize.toNat
  liv : ∀ r ∈ live, 0 < r.len ∧ r.start % 8 = 0 ∧
    ∃ b ∈ rb, b.toNat + 24 ≤ r.start ∧ r.start + r.len ≤ b.toNat + 24 + (s.mem b).used.toNat
  apart : live.Pairwise Region.apart

/-- The same with what is remembered of the last allocation: it begins at `off` in the current
block, and nothing else in this block lies beyond. -/
structure Inv (held0 : List Region) (s : St) (live : List Region) (rb : List W) (off : Nat) : Prop
    extends Core held0 s live rb where
  top : off + s.lastSize.toNat = (s.mem s.current).used.toNat
  last : (s.last = 0 ∧ s.lastSize = 0) ∨
    (s.last.toNat = s.current.toNat + 24 + off ∧ 0 < s.lastSize.toNat)
  below : ∀ r ∈ live, r = ⟨s.last.toNat, s.lastSize.toNat⟩ ∨
    ∃ b ∈ rb, b.toNat + 24 ≤ r.start ∧
      r.start + r.len ≤ b.toNat + 24 + (if b = s.current then off else (s.mem b).used.toNat)

theorem pair_map {mem : W → Hdr} {rb : List W} {rest : List Region}
    (h : (rb.map (blk mem) ++ rest).Pairwise Region.apart) :
    ∀ b ∈ rb, ∀ c ∈ rb, b ≠ c → (blk mem b).apart (blk mem c) := by
  replace h := (List.pairwise_append.1 h).1
  rw [List.pairwise_map] at h
  have : rb.Pairwise (fun b c => (blk mem b).apart (blk mem c) ∧ (blk mem c).apart (blk mem b)) :=
    h.imp (fun {a b} hab => ⟨hab, Or.symm hab⟩)
  clear h
  intro b hb c hc hne
  induction this with
  | nil => cases hb
  | cons h1 _ ih =>
    simp only [List.mem_cons] at hb hc
    rcases hb with rfl | hb <;> rcases hc with rfl | hc
    · exact absurd rfl hne
    · exact (h1 c hc).1
    · exact (h1 b hb).2
    · exact ih hb hc

theorem core_nodup {held0 s live rb} (h : Core held0 s live rb) : rb.Nodup := by
  have hp := h.pair
  rw [h.held] at hp
  have h1 := (List.pairwise_append.1 hp).1
  rw [List.pairwise_map] at h1
  refine h1.imp ?_
  intro a b hab he
  subst he
  simp only [Region.apart, blk] at hab
  omega

/-- The heap's regions begin at different addresses. -/
theorem core_starts {held0 s live rb} (h : Core held0 s live rb) :
    s.held.Pairwise (fun a b => a.start ≠ b.start) := by
  have hp := h.pair
  have hpos := h.pos
  generalize s.held = l at hp hpos
  induction hp with
  | nil => exact .nil
  | cons h1 _ ih =>
    rename_i a l _
    refine .cons ?_ (ih (fun x hx => hpos x (by simp [hx])))
    intro b hb he
    have h2 := h1 b hb
    have h3 := hpos a (by simp)
    have h4 := hpos b (by simp [hb])
    simp only [Region.apart] at h2
    omega

/-! ### taking from the current block -/

theorem blockAlloc_ok {held0 : List Region} {s : St} {live : List Region} {rb : List W}
    (h : Core held0 s live rb) {size p : W} {mem : W → Hdr} (hs0 : 0 < size.toNat)
    (hs : size.toNat < 2 ^ 62) (hb : blockAlloc s.mem s.current size = (p, mem)) (hp : p ≠ 0) :
    ∃ off, Inv held0 { s with mem := mem, last := p, lastSize := size }
      (⟨p.toNat, size.toNat⟩ :: live) rb off := by
  obtain ⟨older, hrb⟩ := h.cur
  have hcur : s.current ∈ rb := by rw [hrb]; simp
  obtain ⟨b1, b2, b3, b4⟩ := h.block _ hcur
  unfold blockAlloc at hb
  simp only at hb
  have hau := alignUp_nat (x := (s.mem s.current).used) (by omega)
  have hadd : (alignUp (s.mem s.current).used + size).toNat =
      ((s.mem s.current).used.toNat + 7) / 8 * 8 + size.toNat := by
    rw [BitVec.toNat_add, hau]; omega
  rw [slt_nat (by omega) (by omega), hadd] at hb
  split at hb
  · simp only [Prod.mk.injEq] at hb
    exact absurd hb.1.symm hp
  rename_i hfit
  simp only [decide_eq_true_eq, Nat.not_lt] at hfit
  simp only [Prod.mk.injEq] at hb
  obtain ⟨rfl, rfl⟩ := hb
  generalize hoff : ((s.mem s.current).used.toNat + 7) / 8 * 8 = off at hau hadd hfit
  have hpn : (blockData s.current + alignUp (s.mem s.current).used).toNat =
      s.current.toNat + 24 + off := by
    have h24 : sizeofBlock.toNat = 24 := rfl
    rw [BitVec.toNat_add, hau, blockData, BitVec.toNat_add, h24]; omega
  have hnext : ∀ b, ((set s.mem s.current { s.mem s.current with
      used := alignUp (s.mem s.current).used + size }) b).next = (s.mem b).next := by
    intro b
    by_cases hbc : b = s.current
    · subst hbc; simp
    · rw [set_other _ _ hbc]
  have hcap : ∀ b, ((set s.mem s.current { s.mem s.current with
      used := alignUp (s.mem s.current).used + size }) b).capacity = (s.mem b).capacity := by
    intro b
    by_cases hbc : b = s.current
    · subst hbc; simp
    · rw [set_other _ _ hbc]
  have hpm := pair_map (by rw [← h.held]; exact h.pair : (rb.map (blk s.mem) ++ _).Pairwise _)
  refine ⟨off, ⟨⟨h.cur, ?_, ?_, h.pair, h.pos, ?_, h.bs, ?_, ?_⟩, ?_, ?_, ?_⟩⟩
  · exact links_congr (fun b _ => hnext b) h.links
  · show s.held = _
    rw [h.held]
    congr 1
    apply List.map_congr_left
    intro b _
    simp only [blk, hcap]
  · intro b hb
    obtain ⟨c1, c2, c3, c4⟩ := h.block b hb
    refine ⟨c1, c2, by rw [hcap]; exact c3, ?_⟩
    by_cases hbc : b = s.current
    · subst hbc
      simp only [set_same, hadd]
      omega
    · simp only [set_other _ _ hbc]; exact c4
  · intro r hr
    simp only [List.mem_cons] at hr
    rcases hr with rfl | hr
    · refine ⟨hs0, ?_, s.current, hcur, ?_, ?_⟩
      · show (blockData s.current + alignUp (s.mem s.current).used).toNat % 8 = 0
        rw [hpn]; omega
      · simp only [hpn]; omega
      · simp only [hpn, set_same, hadd]; omega
    · obtain ⟨l1, l2, b, hb, l3, l4⟩ := h.liv r hr
      refine ⟨l1, l2, b, hb, l3, Nat.le_trans l4 ?_⟩
      by_cases hbc : b = s.current
      · subst hbc
        simp only [set_same, hadd]
        omega
      · simp only [set_other _ _ hbc]; exact Nat.le_refl _
  · refine .cons ?_ h.apart
    intro r hr
    obtain ⟨l1, l2, b, hb, l3, l4⟩ := h.liv r hr
    simp only [Region.apart, hpn]
    by_cases hbc : b = s.current
    · subst hbc; omega
    · have h1 := hpm b hb _ hcur hbc
      obtain ⟨c1, c2, c3, c4⟩ := h.block b hb
      simp only [Region.apart, blk] at h1
      omega
  · simp only [set_same, hadd]
  · exact .inr ⟨hpn, hs0⟩
  · intro r hr
    simp only [List.mem_cons] at hr
    rcases hr with rfl | hr
    · exact .inl rfl
    · obtain ⟨l1, l2, b, hb, l3, l4⟩ := h.liv r hr
      refine .inr ⟨b, hb, l3, ?_⟩
      by_cases hbc : b = s.current
      · subst hbc; simp only [if_true]; omega
      · simp only [hbc, if_false, set_other _ _ hbc]; exact l4

theorem blockAlloc_fail {mem : W → Hdr} {b size : W} (h : (blockAlloc mem b size).1 = 0)
    (hb : 0 < b.toNat) (hb2 : b.toNat + (24 + (mem b).capacity.toNat) ≤ 2 ^ 62)
    (hu : (mem b).used.toNat ≤ (mem b).capacity.toNat) (hs : size.toNat < 2 ^ 62) :
    (blockAlloc mem b size).2 = mem ∧
      (mem b).capacity.toNat < ((mem b).used.toNat + 7) / 8 * 8 + size.toNat := by
  have hau := alignUp_nat (x := (mem b).used) (by omega)
  have hadd : (alignUp (mem b).used + size).toNat =
      ((mem b).used.toNat + 7) / 8 * 8 + size.toNat := by
    rw [BitVec.toNat_add, hau]; omega
  unfold blockAlloc at h ⊢
  simp only at h ⊢
  rw [slt_nat (by omega) (by omega), hadd] at h ⊢
  by_cases hc : (mem b).capacity.toNat < ((mem b).used.toNat + 7) / 8 * 8 + size.toNat
  · simp only [hc, decide_true, if_true]
    exact ⟨trivial, trivial⟩
  · simp only [hc, decide_false, Bool.false_eq_true, if_false] at h
    exfalso
    have h24 : sizeofBlock.toNat = 24 := rfl
    have : (blockData b + alignUp (mem b).used).toNat = 0 := by rw [h]; rfl
    rw [BitVec.toNat_add, hau, blockData, BitVec.toNat_add, h24] at this
    omega

/-! ### a new block -/

theorem newBlock_ok {held0 : List Region} {s : St} {live : List Region} {rb : List W}
    (h : Core held0 s live rb) {a cap : W} (hcap : cap.toNat ≤ 2 ^ 62)
    (hg : Given s.held ⟨a.toNat, 24 + cap.toNat⟩) {mem : W → Hdr} {held : List Region}
    (hb : blockNew s.mem s.held cap a = some (mem, held)) :
    Core held0 { s with current := a, held := held,
                        mem := set mem s.current { mem s.current with next := a } }
      live (a :: rb) := by
  obtain ⟨older, hrb⟩ := h.cur
  have hcur : s.current ∈ rb := by rw [hrb]; simp
  obtain ⟨g1, g2, g3, g4⟩ := hg
  simp only at g1 g2 g3
  have h24 : (sizeofBlock + cap).toNat = 24 + cap.toNat := by
    have h24 : sizeofBlock.toNat = 24 := rfl
    rw [BitVec.toNat_add, h24]; omega
  unfold blockNew at hb
  simp only [h24] at hb
  split at hb
  · cases hb
  simp only [Option.some.injEq, Prod.mk.injEq] at hb
  obtain ⟨rfl, rfl⟩ := hb
  have hne : ∀ b ∈ rb, b ≠ a := by
    rintro b hb rfl
    have := g4 (blk s.mem b) (by rw [h.held]; simp only [List.mem_append, List.mem_map]; exact .inl ⟨b, hb, rfl⟩)
    obtain ⟨c1, c2, c3, c4⟩ := h.block b hb
    simp only [Region.apart, blk] at this
    omega
  have hca := hne _ hcur
  have hm : ∀ b ∈ rb, b ≠ s.current →
      set (set s.mem a { next := 0, capacity := cap, used := 0 }) s.current
        { (set s.mem a { next := 0, capacity := cap, used := 0 }) s.current with next := a } b =
        s.mem b := by
    intro b hb hbc
    rw [set_other _ _ hbc, set_other _ _ (hne b hb)]
  have hmc : set (set s.mem a { next := 0, capacity := cap, used := 0 }) s.current
        { (set s.mem a { next := 0, capacity := cap, used := 0 }) s.current with next := a }
          s.current = { s.mem s.current with next := a } := by
    rw [set_same, set_other _ _ hca]
  have hma : set (set s.mem a { next := 0, capacity := cap, used := 0 }) s.current
        { (set s.mem a { next := 0, capacity := cap, used := 0 }) s.current with next := a } a =
        { next := 0, capacity := cap, used := 0 } := by
    rw [set_other _ _ (Ne.symm hca), set_same]
  generalize set (set s.mem a { next := 0, capacity := cap, used := 0 }) s.current
        { (set s.mem a { next := 0, capacity := cap, used := 0 }) s.current with next := a } = m'
    at hm hmc hma
  have hcu : ∀ b ∈ rb, (m' b).capacity = (s.mem b).capacity ∧ (m' b).used = (s.mem b).used := by
    intro b hb
    by_cases hbc : b = s.current
    · subst hbc; rw [hmc]; exact ⟨rfl, rfl⟩
    · rw [hm b hb hbc]; exact ⟨rfl, rfl⟩
  have hnd := core_nodup h
  refine ⟨⟨rb, rfl⟩, ?_, ?_, ?_, ?_, ?_, h.bs, ?_, h.apart⟩
  · have hl := h.links
    subst hrb
    simp only [List.reverse_cons, List.append_assoc] at hl ⊢
    simp only [List.nodup_cons] at hnd
    refine links_snoc ?_ ?_ ?_ hl
    · intro b hb
      simp only [List.mem_reverse] at hb
      rw [hm b (by simp [hb]) (fun he => hnd.1 (he ▸ hb))]
    · simp only [hmc]
    · simp only [hma]
  · simp only [List.map_cons, List.cons_append, h.held]
    congr 1
    · simp only [blk, hma]
    · congr 1
      apply List.map_congr_left
      intro b hb
      simp only [blk, (hcu b hb).1]
  · exact .cons (fun x hx => g4 x hx) h.pair
  · intro x hx
    simp only [List.mem_cons] at hx
    rcases hx with rfl | hx
    · show 0 < 24 + cap.toNat; omega
    · exact h.pos x hx
  · intro b hb
    simp only [List.mem_cons] at hb
    rcases hb with rfl | hb
    · simp only [hma]
      refine ⟨g1, g2, g3, ?_⟩
      show (0#64).toNat ≤ _
      simp
    · obtain ⟨e1, e2⟩ := hcu b hb
      simp only [e1, e2]
      exact h.block b hb
  · intro r hr
    obtain ⟨l1, l2, b, hb, l3, l4⟩ := h.liv r hr
    refine ⟨l1, l2, b, by simp [hb], l3, ?_⟩
    rw [(hcu b hb).2]
    exact l4

/-! ### giving back -/

theorem dealloc_ok {held0 s live rb off} (h : Inv held0 s live rb off) (p : W) :
    ∃ off', Inv held0 (dealloc s p) (live.filter (fun r => r.start != p.toNat)) rb off' := by
  unfold dealloc
  split
  · rename_i hp
    obtain ⟨older, hrb⟩ := h.cur
    have hcur : s.current ∈ rb := by rw [hrb]; simp
    obtain ⟨c1, c2, c3, c4⟩ := h.block _ hcur
    have htop := h.top
    have hsub : ((s.mem s.current).used - s.lastSize).toNat = off := by
      rw [BitVec.toNat_sub_of_le (by rw [BitVec.le_def]; omega)]
      omega
    have hcap : ∀ b, ((set s.mem s.current { s.mem s.current with
        used := (s.mem s.current).used - s.lastSize }) b).capacity = (s.mem b).capacity := by
      intro b
      by_cases hbc : b = s.current
      · subst hbc; simp
      · rw [set_other _ _ hbc]
    have hnext : ∀ b, ((set s.mem s.current { s.mem s.current with
        used := (s.mem s.current).used - s.lastSize }) b).next = (s.mem b).next := by
      intro b
      by_cases hbc : b = s.current
      · subst hbc; simp
      · rw [set_other _ _ hbc]
    have hused : ∀ b, ((set s.mem s.current { s.mem s.current with
        used := (s.mem s.current).used - s.lastSize }) b).used.toNat =
          if b = s.current then off else (s.mem b).used.toNat := by
      intro b
      by_cases hbc : b = s.current
      · subst hbc; simp [hsub]
      · rw [set_other _ _ hbc]; simp [hbc]
    generalize set s.mem s.current { s.mem s.current with
        used := (s.mem s.current).used - s.lastSize } = m' at hcap hnext hused
    have hbel : ∀ r ∈ live.filter (fun r => r.start != p.toNat), ∃ b ∈ rb,
        b.toNat + 24 ≤ r.start ∧
        r.start + r.len ≤ b.toNat + 24 + (if b = s.current then off else (s.mem b).used.toNat) := by
      intro r hr
      simp only [List.mem_filter, bne_iff_ne, ne_eq] at hr
      rcases h.below r hr.1 with rfl | hb
      · exact absurd (by simp [hp]) hr.2
      · exact hb
    refine ⟨off, ⟨⟨h.cur, ?_, ?_, h.pair, h.pos, ?_, h.bs, ?_, ?_⟩, ?_, .inl ⟨rfl, rfl⟩, ?_⟩⟩
    · exact links_congr (fun b _ => hnext b) h.links
    · show s.held = _
      rw [h.held]
      congr 1
      apply List.map_congr_left
      intro b _
      simp only [blk, hcap]
    · intro b hb
      obtain ⟨d1, d2, d3, d4⟩ := h.block b hb
      refine ⟨d1, d2, by rw [hcap]; exact d3, ?_⟩
      simp only [hused, hcap]
      split
      · subst_vars; omega
      · exact d4
    · intro r hr
      obtain ⟨b, hb, e1, e2⟩ := hbel r hr
      have hr' := (List.mem_filter.1 hr).1
      obtain ⟨l1, l2, _⟩ := h.liv r hr'
      exact ⟨l1, l2, b, hb, e1, by simp only [hused]; exact e2⟩
    · exact h.apart.filter _
    · simp only [hused, if_true]
      rfl
    · intro r hr
      obtain ⟨b, hb, e1, e2⟩ := hbel r hr
      refine .inr ⟨b, hb, e1, ?_⟩
      simp only [hused]
      split
      · rename_i hc
        simpa [hc] using e2
      · rename_i hc
        simpa [hc] using e2
  · refine ⟨off, ⟨⟨h.cur, h.links, h.held, h.pair, h.pos, h.block, h.bs, ?_, ?_⟩, h.top, h.last, ?_⟩⟩
    · intro r hr
      exact h.liv r (List.mem_filter.1 hr).1
    · exact h.apart.filter _
    · intro r hr
      exact h.below r (List.mem_filter.1 hr).1

theorem freeAll_ok (junk : W → Hdr) : ∀ (bs : List W) (n : Nat) (mem : W → Hdr)
    (held : List Region) (p : W), Links mem p bs → bs.length ≤ n → bs.Nodup →
    (∀ b ∈ bs, 0 < b.toNat ∧ ∃ r ∈ held, r.start = b.toNat) →
    ∃ mem', freeAll junk n mem held p =
        some (mem', held.filter (fun r => bs.all fun b => r.start != b.toNat)) ∧
      ∀ x, x ∉ bs → mem' x = mem x
  | [], n, mem, held, p, hl, _, _, _ => by
    have : p = 0 := hl
    subst this
    refine ⟨mem, ?_, fun _ _ => rfl⟩
    have hf : held.filter (fun r => ([] : List W).all fun b => r.start != b.toNat) = held := by
      simp
    rw [hf]
    cases n <;> simp [freeAll]
  | b :: bs, 0, mem, held, p, hl, hn, _, _ => by simp at hn
  | b :: bs, n + 1, mem, held, p, hl, hn, hnd, hh => by
    obtain ⟨rfl, hl⟩ := hl
    simp only [List.nodup_cons] at hnd
    obtain ⟨h1, r, hr, hrs⟩ := hh p (by simp)
    have hp0 : p ≠ 0 := by rintro rfl; simp at h1
    have hany : (held.any fun r => r.start == p.toNat) = true := by
      rw [List.any_eq_true]; exact ⟨r, hr, by simp [hrs]⟩
    obtain ⟨mem', he, ho⟩ := freeAll_ok junk bs n (set mem p (junk p))
      (held.filter fun r => r.start != p.toNat) (mem p).next
      (links_congr (fun b hb => by
        have hbp : b ≠ p := fun he => hnd.1 (he ▸ hb)
        rw [set_other _ _ hbp]) hl)
      (by simp at hn; omega) hnd.2
      (by
        intro b hb
        obtain ⟨g1, q, hq, hqs⟩ := hh b (by simp [hb])
        refine ⟨g1, q, ?_, hqs⟩
        simp only [List.mem_filter, bne_iff_ne, ne_eq]
        refine ⟨hq, ?_⟩
        intro hc
        have : b = p := BitVec.eq_of_toNat_eq (by omega)
        exact hnd.1 (this ▸ hb))
    refine ⟨mem', ?_, ?_⟩
    · simp only [freeAll, hp0, if_false, free, hany, if_true, he, List.filter_filter,
        List.all_cons]
      congr 3
      funext r
      rw [Bool.and_comm]
    · intro x hx
      simp only [List.mem_cons, not_or] at hx
      rw [ho x hx.2, set_other _ _ hx.1]

end Nature.Arena
