import Verif.Relax.Lemmas
/-
C94: the linker's alignment of riscv64 code removes no-operations only and aligns what follows.
-/
namespace Nature.Relax

/-- What the plan, its layout and the output have to do with the directives. -/
structure Relaxed (inp : List UInt8) (as : List Align) (rvc : Bool) (address : Nat) (q : Plan)
    (out : List UInt8) : Prop where
  laid : q.laidOut = true
  size : q.inSize = inp.length
  len : out.length = q.outSize
  chain : Chain rvc address inp.length 0 0 q.regions
  emitted : emitLoop rvc inp 0 q.regions = some out
  ok : ∀ r ∈ q.regions, ∃ a ∈ as, a.offset = r.input ∧ a.addend = r.padding ∧
    Bound r.padding r.alignment
  all : ∀ a ∈ as, 0 < a.addend → ∃ r ∈ q.regions, r.input = a.offset ∧
    (r.padding : Int) = a.addend ∧ Bound r.padding r.alignment ∧
    Nops rvc ((inp.drop a.offset).take a.addend.toNat)

theorem planBuild_spec {inp : List UInt8} {as : List Align} {rvc : Bool} {p : Plan}
    (hb : planBuild inp as rvc = some p) :
    p.inSize = inp.length ∧ p.rvc = rvc ∧ Follows 0 p.regions ∧ (∀ r ∈ p.regions, r.Ok rvc inp) ∧
      (∀ r ∈ p.regions, ∃ a ∈ as, a.offset = r.input ∧ a.addend = r.padding) ∧
      (∀ a ∈ as, 0 < a.addend → ∃ r ∈ p.regions, r.input = a.offset ∧
        (r.padding : Int) = a.addend) := by
  unfold planBuild at hb
  split at hb
  · cases hb
  rename_i rs hrs
  obtain ⟨r1, r2, r3, r4⟩ := collect_spec hrs
  split at hb
  · rename_i hemp
    simp only [Option.some.injEq] at hb
    subst hb
    have : rs = [] := by simpa using hemp
    subst this
    exact ⟨rfl, rfl, trivial, by simp, by simp, r4⟩
  · simp only at hb
    split at hb
    · rename_i hno
      simp only [Option.some.injEq] at hb
      subst hb
      have hm : ∀ r, r ∈ rs.foldr insertRegion [] ↔ r ∈ rs := fun r => (sort_perm rs).mem_iff
      refine ⟨rfl, rfl, noOverlap_follows hno, fun r hr => r2 r ((hm r).1 hr),
        fun r hr => r3 r ((hm r).1 hr), ?_⟩
      intro a ha hp
      obtain ⟨r, hr, h⟩ := r4 a ha hp
      exact ⟨r, (hm r).2 hr, h⟩
    · cases hb

theorem relaxed {inp : List UInt8} {as : List Align} {rvc : Bool} {p q : Plan} {address n : Nat}
    {out : List UInt8} (hb : planBuild inp as rvc = some p) (hl : planLayout p address = some q)
    (he : emit q inp n = some out) : Relaxed inp as rvc address q out := by
  obtain ⟨b1, b2, b3, b4, b5, b6⟩ := planBuild_spec hb
  unfold planLayout at hl
  split at hl
  · cases hl
  rename_i rs d hpass
  simp only [Option.some.injEq] at hl
  subst hl
  rw [b2] at hpass
  obtain ⟨e1, e2, e3⟩ := layoutPass_spec (Nat.zero_le _) (Nat.zero_le _) b3 b4 hpass
  unfold emit at he
  simp only [Bool.not_true, Bool.false_eq_true, if_false] at he
  split at he
  · cases he
  rename_i hsz
  split at he
  · cases he
  rename_i l hemit
  split at he
  · rename_i hlen
    simp only [Option.some.injEq] at he
    subst he
    have hto : ∀ r ∈ rs, ∃ r0 ∈ p.regions, r.input = r0.input ∧ r.padding = r0.padding ∧
        r.alignment = r0.alignment := by
      intro r hr
      have : (r.input, r.padding, r.alignment) ∈
          rs.map (fun r => (r.input, r.padding, r.alignment)) := List.mem_map.2 ⟨r, hr, rfl⟩
      rw [e3] at this
      obtain ⟨r0, h0, h1⟩ := List.mem_map.1 this
      simp only [Prod.mk.injEq] at h1
      exact ⟨r0, h0, h1.1.symm, h1.2.1.symm, h1.2.2.symm⟩
    have hfrom : ∀ r0 ∈ p.regions, ∃ r ∈ rs, r.input = r0.input ∧ r.padding = r0.padding ∧
        r.alignment = r0.alignment := by
      intro r hr
      have : (r.input, r.padding, r.alignment) ∈
          p.regions.map (fun r => (r.input, r.padding, r.alignment)) := List.mem_map.2 ⟨r, hr, rfl⟩
      rw [← e3] at this
      obtain ⟨r0, h0, h1⟩ := List.mem_map.1 this
      simp only [Prod.mk.injEq] at h1
      exact ⟨r0, h0, h1.1, h1.2.1, h1.2.2⟩
    refine ⟨rfl, b1, ?_, by simpa using e1, by simpa [b2] using hemit, ?_, ?_⟩
    · simp only [ne_eq, not_or, Decidable.not_not] at hsz
      simp only; omega
    · intro r hr
      obtain ⟨r0, h0, h1, h2, h3⟩ := hto r hr
      obtain ⟨a, ha, h4, h5⟩ := b5 r0 h0
      exact ⟨a, ha, by omega, by omega, by rw [h2, h3]; exact (b4 r0 h0).bound⟩
    · intro a ha hp
      obtain ⟨r0, h0, h1, h2⟩ := b6 a ha hp
      obtain ⟨r, hr, h3, h4, h5⟩ := hfrom r0 h0
      refine ⟨r, hr, by omega, by omega, by rw [h4, h5]; exact (b4 r0 h0).bound, ?_⟩
      have := (b4 r0 h0).nops
      rw [h1] at this
      have ht : a.addend.toNat = r0.padding := by omega
      rw [ht]; exact this
  · cases he

theorem Relaxed.clear {inp : List UInt8} {as : List Align} {rvc : Bool} {address : Nat} {q : Plan}
    {out : List UInt8} (h : Relaxed inp as rvc address q out) {x w : Nat} (hb : Between as x w) :
    Clear q.regions x w := by
  intro r hr
  obtain ⟨a, ha, h1, h2, h3⟩ := h.ok r hr
  have := h3.above
  have := h3.least
  have := hb a ha (by omega)
  omega

theorem Relaxed.between {inp : List UInt8} {as : List Align} {rvc : Bool} {address : Nat} {q : Plan}
    {out : List UInt8} (h : Relaxed inp as rvc address q out) {x w : Nat}
    (hc : Clear q.regions x w) : Between as x w := by
  intro a ha hp
  obtain ⟨r, hr, h1, h2, _⟩ := h.all a ha hp
  have := hc r hr
  omega

theorem Relaxed.map {inp : List UInt8} {as : List Align} {rvc : Bool} {address : Nat} {q : Plan}
    {out : List UInt8} (h : Relaxed inp as rvc address q out) {x w : Nat} (hx : x + w ≤ inp.length)
    (hc : Clear q.regions x w) :
    relaxMap q x w = some (pos q.regions 0 0 x, true, out.length - pos q.regions 0 0 x) := by
  have h1 := emit_code h.chain h.emitted (Nat.zero_le _) hx hc
  have h2 := mapLoop_pos h.chain (Nat.zero_le _) hc
  simp only [Nat.zero_add, Nat.sub_zero] at h2
  unfold relaxMap
  have hn : ¬ ((!q.laidOut) = true ∨ x > q.inSize ∨ w > q.inSize - x) := by
    rw [h.laid, h.size]; simp; omega
  have hm : ¬ pos q.regions 0 0 x > q.outSize := by rw [← h.len]; omega
  simp only [hn, if_false, h2, hm, h.len]

theorem Bound.unique {p a b : Nat} (ha : Bound p a) (hb : Bound p b) : a = b := by
  obtain ⟨i, hi⟩ := ha.power
  obtain ⟨j, hj⟩ := hb.power
  have a1 := ha.above
  have a2 := ha.least
  have b1 := hb.above
  have b2 := hb.least
  have key : ∀ {i j : Nat}, i < j → 2 * 2 ^ i ≤ 2 ^ j := by
    intro i j h
    have := Nat.pow_le_pow_right (n := 2) (by omega) (Nat.succ_le_of_lt h)
    rw [Nat.succ_eq_add_one, Nat.pow_succ] at this
    omega
  rcases Nat.lt_trichotomy i j with h | h | h
  · have := key h; omega
  · rw [hi, hj, h]
  · have := key h; omega

/-- Code is kept: it is found where the map says, byte for byte. -/
theorem C94_code {inp : List UInt8} {as : List Align} {rvc : Bool} {p q : Plan} {address n : Nat}
    {out : List UInt8} (hb : planBuild inp as rvc = some p) (hl : planLayout p address = some q)
    (he : emit q inp n = some out) (x w : Nat) (hx : x + w ≤ inp.length) (hc : Between as x w) :
    ∃ y, relaxMap q x w = some (y, true, out.length - y) ∧ y + w ≤ out.length ∧
      ∀ i < w, out[y + i]? = inp[x + i]? := by
  have h := relaxed hb hl he
  have h1 := emit_code h.chain h.emitted (Nat.zero_le _) hx (h.clear hc)
  exact ⟨_, h.map hx (h.clear hc), by omega, by simpa using h1.2⟩

/-- Code stays in order and does not come to overlap. -/
theorem C94_order {inp : List UInt8} {as : List Align} {rvc : Bool} {p q : Plan} {address n : Nat}
    {out : List UInt8} (hb : planBuild inp as rvc = some p) (hl : planLayout p address = some q)
    (he : emit q inp n = some out) (x w x' w' y y' : Nat) (b b' : Bool) (m m' : Nat)
    (hc : Between as x w) (hc' : Between as x' w') (hle : x + w ≤ x') (hx : x' + w' ≤ inp.length)
    (h : relaxMap q x w = some (y, b, m)) (h' : relaxMap q x' w' = some (y', b', m')) :
    y + w ≤ y' := by
  have hr := relaxed hb hl he
  rw [hr.map (by omega) (hr.clear hc)] at h
  rw [hr.map hx (hr.clear hc')] at h'
  simp only [Option.some.injEq, Prod.mk.injEq] at h h'
  have : Clear q.regions x' 0 := by
    intro r hr'
    have := hr.clear hc' r hr'
    omega
  have := pos_mono hr.chain (Nat.zero_le _) hle (hr.clear hc) this
  omega

/-- At each directive no-operations are replaced by fewer of them, and what follows is aligned to the
smallest power of two above the size of the padding. -/
theorem C94_aligned {inp : List UInt8} {as : List Align} {rvc : Bool} {p q : Plan} {address n : Nat}
    {out : List UInt8} (hb : planBuild inp as rvc = some p) (hl : planLayout p address = some q)
    (he : emit q inp n = some out) (a : Align) (ha : a ∈ as) (hp : 0 < a.addend) (al : Nat)
    (hal : Bound a.addend.toNat al) :
    ∃ y k, relaxMap q a.offset 0 = some (y, true, out.length - y) ∧
      relaxMap q (a.offset + a.addend.toNat) 0 = some (y + k, true, out.length - (y + k)) ∧
      (address + (y + k)) % al = 0 ∧ k < al ∧ k ≤ a.addend ∧ y + k ≤ out.length ∧
      Nops rvc ((out.drop y).take k) ∧ Nops rvc ((inp.drop a.offset).take a.addend.toNat) := by
  have hr := relaxed hb hl he
  obtain ⟨r, hrm, h1, h2, h3, h4⟩ := hr.all a ha hp
  obtain ⟨e1, e2, e3, e4, e5, e6, e7, e8⟩ := pos_ends hr.chain r hrm
  obtain ⟨n1, n2⟩ := emit_nops hr.chain hr.emitted r hrm
  have hpad : a.addend.toNat = r.padding := by omega
  have hk : ∀ {rs : List Region} {src dst : Nat}, Chain rvc address inp.length src dst rs →
      ∀ r ∈ rs, r.kept ≤ r.padding ∧ r.input + r.padding ≤ inp.length := by
    intro rs
    induction rs with
    | nil => intro _ _ _ r hr; cases hr
    | cons p rs ih =>
      intro src dst h r hr
      simp only [List.mem_cons] at hr
      rcases hr with rfl | hr
      · exact ⟨h.2.2.1, h.2.2.2.2.2.2.2.1⟩
      · exact ih h.2.2.2.2.2.2.2.2 r hr
  obtain ⟨hk1, hk2⟩ := hk hr.chain r hrm
  rw [hpad] at hal
  have hbnd := hal.unique h3
  subst hbnd
  rw [← h1, hpad]
  refine ⟨r.output, r.kept, ?_, ?_, by rw [← Nat.add_assoc]; exact e5, e6, by omega, by simpa using n1,
    by simpa using n2, by rw [h1, ← hpad]; exact h4⟩
  · have := hr.map (x := r.input) (w := 0) (by omega) e7
    rw [e1] at this
    exact this
  · have := hr.map (x := r.input + r.padding) (w := 0) (by omega) e8
    rw [e2] at this
    exact this

/-- Nothing else is in the output. -/
theorem C94_nothing_else {inp : List UInt8} {as : List Align} {rvc : Bool} {p q : Plan}
    {address n : Nat} {out : List UInt8} (hb : planBuild inp as rvc = some p)
    (hl : planLayout p address = some q) (he : emit q inp n = some out) (y : Nat)
    (hy : y < out.length) :
    (∃ x, x < inp.length ∧ Between as x 1 ∧ relaxMap q x 1 = some (y, true, out.length - y)) ∨
    ∃ a ∈ as, 0 < a.addend ∧ ∃ y0 y1, relaxMap q a.offset 0 = some (y0, true, out.length - y0) ∧
      relaxMap q (a.offset + a.addend.toNat) 0 = some (y1, true, out.length - y1) ∧
      y0 ≤ y ∧ y < y1 := by
  have hr := relaxed hb hl he
  rcases emit_cover hr.chain hr.emitted hy with ⟨x, _, h2, h3, h4⟩ | ⟨r, hrm, h1, h2⟩
  · left
    refine ⟨x, h2, hr.between h3, ?_⟩
    rw [hr.map (by omega) h3, h4, Nat.zero_add]
  · right
    obtain ⟨a, ha, a1, a2, a3⟩ := hr.ok r hrm
    have := a3.above
    have := a3.least
    obtain ⟨y0, k, c1, c2, _⟩ := C94_aligned hb hl he a ha (by omega) r.alignment (by
      have : a.addend.toNat = r.padding := by omega
      rw [this]; exact a3)
    refine ⟨a, ha, by omega, y0, y0 + k, c1, c2, ?_⟩
    obtain ⟨e1, e2, _, _, _, _, e7, e8⟩ := pos_ends hr.chain r hrm
    have hin : ∀ {rs : List Region} {src dst : Nat}, Chain rvc address inp.length src dst rs →
        ∀ r ∈ rs, r.input + r.padding ≤ inp.length := by
      intro rs
      induction rs with
      | nil => intro _ _ _ r hr; cases hr
      | cons p rs ih =>
        intro src dst h r hr
        simp only [List.mem_cons] at hr
        rcases hr with rfl | hr
        · exact h.2.2.2.2.2.2.2.1
        · exact ih h.2.2.2.2.2.2.2.2 r hr
    have hi := hin hr.chain r hrm
    have hpad : a.addend.toNat = r.padding := by omega
    rw [a1, hr.map (by omega) e7, e1] at c1
    rw [a1, hpad, hr.map (by omega) e8, e2] at c2
    simp only [Option.some.injEq, Prod.mk.injEq] at c1 c2
    omega

theorem mapLoop_range {rvc : Bool} {address n : Nat} : ∀ {rs : List Region} {src dst x w y : Nat},
    Chain rvc address n src dst rs → src ≤ x → mapLoop x w rs (dst + (x - src)) = (y, true) →
    ∀ i < w, mapLoop (x + i) 1 rs (dst + (x + i - src)) = (y + i, true)
  | [], src, dst, x, w, y, _, h1, h, i, hi => by
    simp only [mapLoop, Prod.mk.injEq, and_true] at h ⊢
    omega
  | r :: rs, src, dst, x, w, y, h, h1, hm, i, hi => by
    obtain ⟨c1, c2, c3, c4, c5, c6, c7, c8, c9⟩ := h
    unfold mapLoop at hm ⊢
    simp only at hm ⊢
    by_cases hge : x ≥ r.input + r.padding
    · have hge' : x + i ≥ r.input + r.padding := by omega
      simp only [hge, hge', if_true] at hm ⊢
      have e1 : dst + (x - src) - (r.input + r.padding - (r.input + r.kept)) =
          r.output + r.kept + (x - (r.input + r.padding)) := by omega
      have e2 : dst + (x + i - src) - (r.input + r.padding - (r.input + r.kept)) =
          r.output + r.kept + (x + i - (r.input + r.padding)) := by omega
      rw [e1] at hm
      rw [e2]
      exact mapLoop_range c9 hge hm i hi
    · simp only [hge, if_false] at hm
      by_cases hlt : x < r.input + r.kept
      · simp only [hlt, if_true] at hm
        split at hm
        · simp at hm
        · rename_i hno
          have h2 : x + w ≤ r.input + r.kept := by omega
          have hn1 : ¬ x + i ≥ r.input + r.padding := by omega
          have hn2 : x + i < r.input + r.kept := by omega
          have hn3 : ¬ ((1 : Nat) ≠ 0 ∧ x + i + 1 > r.input + r.kept ∧
            x + i < r.input + r.padding) := by omega
          simp only [hn1, if_false, hn2, if_true, hn3, Prod.mk.injEq, and_true]
          simp only [Prod.mk.injEq, and_true] at hm
          omega
      · simp only [hlt, if_false] at hm
        split at hm
        · omega
        · simp at hm

theorem removed_le {rvc : Bool} {address n : Nat} : ∀ {rs : List Region} {src dst : Nat},
    Chain rvc address n src dst rs → removed rs ≤ n - src
  | [], _, _, _ => Nat.zero_le _
  | r :: rs, src, dst, h => by
    obtain ⟨c1, c2, c3, c4, c5, c6, c7, c8, c9⟩ := h
    have := removed_le c9
    unfold removed
    omega

theorem mapLoop_room {rvc : Bool} {address n : Nat} : ∀ {rs : List Region} {src dst x w y : Nat},
    Chain rvc address n src dst rs → src ≤ x → x + w ≤ n → 0 < w →
    mapLoop x w rs (dst + (x - src)) = (y, true) → y + w + removed rs ≤ dst + (n - src)
  | [], src, dst, x, w, y, _, h1, h2, _, h => by
    simp only [mapLoop, Prod.mk.injEq, and_true] at h
    simp only [removed]
    omega
  | r :: rs, src, dst, x, w, y, h, h1, h2, hw, hm => by
    obtain ⟨c1, c2, c3, c4, c5, c6, c7, c8, c9⟩ := h
    have hrem := removed_le c9
    unfold mapLoop at hm
    simp only at hm
    unfold removed
    by_cases hge : x ≥ r.input + r.padding
    · simp only [hge, if_true] at hm
      have e1 : dst + (x - src) - (r.input + r.padding - (r.input + r.kept)) =
          r.output + r.kept + (x - (r.input + r.padding)) := by omega
      rw [e1] at hm
      have := mapLoop_room c9 hge h2 hw hm
      omega
    · simp only [hge, if_false] at hm
      by_cases hlt : x < r.input + r.kept
      · simp only [hlt, if_true] at hm
        split at hm
        · simp at hm
        · simp only [Prod.mk.injEq, and_true] at hm
          omega
      · simp only [hlt, if_false] at hm
        split at hm
        · omega
        · simp at hm

/-- Bytes of which the map says that they are kept are kept together: each is where the first is,
plus its distance. -/
theorem C94_range {inp : List UInt8} {as : List Align} {rvc : Bool} {p q : Plan} {address n : Nat}
    {out : List UInt8} (hb : planBuild inp as rvc = some p) (hl : planLayout p address = some q)
    (he : emit q inp n = some out) (x w y m : Nat) (h : relaxMap q x w = some (y, true, m)) (i : Nat)
    (hi : i < w) : y + i < out.length ∧
    relaxMap q (x + i) 1 = some (y + i, true, out.length - (y + i)) := by
  have hr := relaxed hb hl he
  unfold relaxMap at h ⊢
  split at h
  · cases h
  rename_i hno
  rw [hr.laid, hr.size] at hno
  simp only [Bool.not_true, Bool.false_eq_true, false_or, not_or] at hno
  generalize hmm : mapLoop x w q.regions x = z at h
  obtain ⟨z1, z2⟩ := z
  simp only at h
  split at h
  · cases h
  simp only [Option.some.injEq, Prod.mk.injEq] at h
  obtain ⟨rfl, rfl, _⟩ := h
  have := mapLoop_range hr.chain (Nat.zero_le x) (by simpa using hmm) i hi
  simp only [Nat.zero_add, Nat.sub_zero] at this
  have hn : ¬ ((!q.laidOut) = true ∨ x + i > q.inSize ∨ 1 > q.inSize - (x + i)) := by
    rw [hr.laid, hr.size]; simp; omega
  have hroom := mapLoop_room hr.chain (Nat.zero_le x) (w := w) (by omega) (by omega)
    (by simpa using hmm)
  obtain ⟨l, hl, hlen⟩ := emitLoop_some hr.chain
  rw [hr.emitted] at hl
  cases hl
  have hm : ¬ z1 + i > q.outSize := by rw [← hr.len]; omega
  refine ⟨by omega, ?_⟩
  simp only [hn, if_false, this, hm, hr.len]

/-! ### what an assembler writes is accepted -/

theorem step_pos (rvc : Bool) : 0 < step rvc := by cases rvc <;> decide

theorem step_dvd_pow {rvc : Bool} {k : Nat} (h : step rvc ≤ 2 ^ k) : 2 ^ k % step rvc = 0 := by
  have hs : ∃ j, step rvc = 2 ^ j := by
    cases rvc
    · exact ⟨2, rfl⟩
    · exact ⟨1, rfl⟩
  obtain ⟨j, hj⟩ := hs
  rw [hj] at h ⊢
  exact Nat.mod_eq_zero_of_dvd (Nat.pow_dvd_pow 2 ((Nat.pow_le_pow_iff_right (by omega)).1 h))

/-- A region as an assembler's directive makes it. -/
structure Region.Good (r : Region) (rvc : Bool) : Prop where
  steps : r.input % step rvc = 0
  enough : r.padding + step rvc = r.alignment
  whole : r.alignment % step rvc = 0

theorem collect_some {rvc : Bool} {inp : List UInt8} (hsz : inp.length < 2 ^ 63) :
    ∀ {as : List Align}, Proper rvc inp as → ∃ rs, collect rvc inp as = some rs ∧
      (∀ r ∈ rs, r.Good rvc) ∧
      rs.Pairwise (fun a b => a.input + a.padding ≤ b.input ∨ b.input + b.padding ≤ a.input)
  | [], _ => ⟨[], rfl, by simp, .nil⟩
  | a :: as, hp => by
    have hp' : Proper rvc inp as := ⟨fun x hx => hp.inside x (by simp [hx]),
      fun x hx => hp.nops x (by simp [hx]), fun x hx => hp.enough x (by simp [hx]),
      fun x hx => hp.steps x (by simp [hx]), (List.pairwise_cons.1 hp.apart).2⟩
    obtain ⟨rs, hrs, hgood, hpw⟩ := collect_some hsz hp'
    obtain ⟨h0, hin⟩ := hp.inside a (by simp)
    have hnops := hp.nops a (by simp)
    obtain ⟨k, hk⟩ := hp.enough a (by simp)
    have hst := hp.steps a (by simp)
    have hn0 : ¬ a.addend < 0 := by omega
    have hn1 : ¬ (a.offset > inp.length ∨ a.addend.toNat > inp.length - a.offset) := by omega
    unfold collect
    simp only [hn0, if_false, hn1]
    by_cases hz : a.addend.toNat = 0
    · simp only [hz, if_true]
      exact ⟨rs, hrs, hgood, hpw⟩
    · have hkn : a.addend.toNat + step rvc = 2 ^ k := by
        have : ((a.addend.toNat + step rvc : Nat) : Int) = ((2 ^ k : Nat) : Int) := by
          rw [Int.natCast_add, Int.toNat_of_nonneg h0, hk]
          simp
        exact Int.ofNat.inj this
      have hw := step_dvd_pow (rvc := rvc) (k := k) (by omega)
      have hg : a.addend.toNat % step rvc = 0 := by
        rw [← hkn, Nat.add_mod_right] at hw
        exact hw
      have hlen : ((inp.drop a.offset).take a.addend.toNat).length ≤ a.addend.toNat := by
        rw [List.length_take]; omega
      have hpn := paddingIsNops_of hnops _ hlen
      obtain ⟨al, hal⟩ := requiredAlignment_some (padding := a.addend.toNat) 64 1 (by omega)
        (by rw [Nat.one_mul]; exact Nat.lt_of_le_of_lt (by omega) hsz) (by omega)
      have hb := requiredAlignment_spec (by omega) _ _ _ ⟨0, rfl⟩ (.inl rfl) hal
      have hsp := step_pos rvc
      have hstep : step rvc ≤ a.addend.toNat :=
        Nat.le_of_dvd (by omega) (Nat.dvd_of_mod_eq_zero hg)
      have hb2 : Bound a.addend.toNat (2 ^ k) := ⟨⟨k, rfl⟩, by omega, by omega⟩
      have hu := hb.unique hb2
      subst hu
      rw [step_eq]
      simp only [hz, if_false, hg, ne_eq, not_true_eq_false, hpn, Bool.not_true,
        Bool.false_eq_true, hal, hrs]
      refine ⟨_, rfl, ?_, ?_⟩
      · intro r hr
        simp only [List.mem_cons] at hr
        rcases hr with rfl | hr
        · exact ⟨hst, hkn, hw⟩
        · exact hgood r hr
      · rw [List.pairwise_cons]
        refine ⟨?_, hpw⟩
        intro r hr
        obtain ⟨_, _, r3, _⟩ := collect_spec hrs
        obtain ⟨b, hb, hb1, hb2⟩ := r3 r hr
        have := (List.pairwise_cons.1 hp.apart).1 b hb
        simp only
        omega

theorem noOverlap_of : ∀ {rs : List Region} {prev : Nat},
    rs.Pairwise (fun a b => a.input + a.padding ≤ b.input) → (∀ r ∈ rs, prev ≤ r.input) →
    noOverlap prev rs = true
  | [], _, _, _ => rfl
  | r :: rs, prev, h, hp => by
    rw [List.pairwise_cons] at h
    unfold noOverlap
    have : ¬ r.input < prev := by have := hp r (by simp); omega
    simp only [this, if_false]
    exact noOverlap_of h.2 h.1

theorem layoutPass_some {rvc : Bool} {address : Nat} {inp : List UInt8}
    (ha : address % step rvc = 0) (hsz : address + inp.length ≤ maxU64) :
    ∀ {rs : List Region} {src deleted : Nat}, deleted ≤ src → deleted % step rvc = 0 →
      Follows src rs → (∀ r ∈ rs, r.Ok rvc inp ∧ r.Good rvc) →
      ∃ z, layoutPass rvc address deleted rs = some z
  | [], _, _, _, _, _, _ => ⟨_, rfl⟩
  | r :: rs, src, deleted, h1, h2, hf, hok => by
    obtain ⟨ho, hg⟩ := hok r (by simp)
    obtain ⟨hf1, hf2⟩ := hf
    have hsp := step_pos rvc
    have hin := ho.inside
    have hen := hg.enough
    have hal : 0 < r.alignment := by omega
    have hplace : (address + (r.input - deleted)) % step rvc = 0 := by
      apply Nat.mod_eq_zero_of_dvd
      exact Nat.dvd_add (Nat.dvd_of_mod_eq_zero ha) (Nat.dvd_sub (Nat.dvd_of_mod_eq_zero hg.steps)
        (Nat.dvd_of_mod_eq_zero h2))
    have hkept : ((r.alignment - (address + (r.input - deleted)) % r.alignment) % r.alignment) %
          step rvc = 0 ∧
        (r.alignment - (address + (r.input - deleted)) % r.alignment) % r.alignment ≤ r.padding := by
      have hd := Nat.dvd_of_mod_eq_zero hg.whole
      have d1 : step rvc ∣ (address + (r.input - deleted)) % r.alignment :=
        (Nat.dvd_mod_iff hd).2 (Nat.dvd_of_mod_eq_zero hplace)
      have d2 := Nat.dvd_sub hd d1
      have d3 := (Nat.dvd_mod_iff hd).2 d2
      refine ⟨Nat.mod_eq_zero_of_dvd d3, ?_⟩
      have hlt := Nat.mod_lt (r.alignment - (address + (r.input - deleted)) % r.alignment) hal
      have d4 := Nat.dvd_sub hd d3
      have := Nat.le_of_dvd (by omega) d4
      omega
    unfold layoutPass
    simp only
    rw [step_eq]
    generalize (r.alignment - (address + (r.input - deleted)) % r.alignment) % r.alignment = kept at *
    obtain ⟨k1, k2⟩ := hkept
    have hn1 : ¬ address > maxU64 - (r.input - deleted) := by omega
    have hn2 : ¬ (kept > r.padding ∨ kept % step rvc ≠ 0) := by omega
    have hn3 : ¬ deleted > maxU64 - (r.padding - kept) := by omega
    simp only [hn1, hn2, hn3, if_false]
    have hpad : r.padding % step rvc = 0 := by
      have := hg.whole
      rw [← hen, Nat.add_mod_right] at this
      exact this
    obtain ⟨⟨z1, z2⟩, hz⟩ := layoutPass_some ha hsz (rs := rs) (src := r.input + r.padding)
      (deleted := deleted + (r.padding - kept)) (by omega)
      (Nat.mod_eq_zero_of_dvd (Nat.dvd_add (Nat.dvd_of_mod_eq_zero h2)
        (Nat.dvd_sub (Nat.dvd_of_mod_eq_zero hpad) (Nat.dvd_of_mod_eq_zero k1)))) hf2
      (fun x hx => hok x (by simp [hx]))
    rw [hz]
    exact ⟨_, rfl⟩

/-- A section as an assembler writes it is accepted, wherever its first instruction may be. -/
theorem C94_accepted (inp : List UInt8) (as : List Align) (rvc : Bool) (address : Nat)
    (hp : Proper rvc inp as) (ha : address % step rvc = 0) (hsz : address + inp.length ≤ maxU64)
    (hlen : inp.length < 2 ^ 63) :
    ∃ p q out, planBuild inp as rvc = some p ∧ planLayout p address = some q ∧
      emit q inp q.outSize = some out := by
  obtain ⟨rs, hrs, hgood, hpw⟩ := collect_some hlen hp
  obtain ⟨_, c2, _, _⟩ := collect_spec hrs
  have hm : ∀ r, r ∈ rs.foldr insertRegion [] ↔ r ∈ rs := fun r => (sort_perm rs).mem_iff
  have hno : noOverlap 0 (rs.foldr insertRegion []) = true := by
    apply noOverlap_of _ (fun _ _ => Nat.zero_le _)
    have h1 : (rs.foldr insertRegion []).Pairwise
        (fun a b => a.input + a.padding ≤ b.input ∨ b.input + b.padding ≤ a.input) :=
      ((sort_perm rs).pairwise_iff (fun h => h.symm)).2 hpw
    have h2 := sort_sorted rs
    have h3 := List.Pairwise.and h1 h2
    apply List.Pairwise.imp_of_mem _ h3
    intro a b ha hb h
    have := (c2 b ((hm b).1 hb)).pos
    omega
  have hb : ∃ p, planBuild inp as rvc = some p ∧ ∀ r ∈ p.regions, r.Good rvc := by
    unfold planBuild
    rw [hrs]
    simp only
    split
    · exact ⟨_, rfl, by simp⟩
    · exact ⟨_, rfl, fun r hr => hgood r ((hm r).1 hr)⟩
  obtain ⟨p, hp1, hp2⟩ := hb
  obtain ⟨b1, b2, b3, b4, b5, b6⟩ := planBuild_spec hp1
  obtain ⟨⟨rs', d⟩, hz⟩ := layoutPass_some ha hsz (Nat.le_refl 0) (Nat.zero_mod _) b3
    (fun r hr => ⟨b4 r hr, hp2 r hr⟩)
  obtain ⟨e1, e2, e3⟩ := layoutPass_spec (Nat.zero_le _) (Nat.zero_le _) b3 b4 hz
  obtain ⟨l, hl, hlen'⟩ := emitLoop_some e1
  have hq : planLayout p address = some { p with regions := rs', outSize := p.inSize - d,
                                                 laidOut := true } := by
    unfold planLayout
    rw [b2, hz]
  refine ⟨p, _, l, hp1, hq, ?_⟩
  unfold emit
  have hl2 : l.length = p.inSize - d := by rw [b1]; omega
  simp [b1, b2, hl, hl2]

/-! ### the theorems say something -/

/-- An instruction, 6 bytes of padding for an alignment to 8, an instruction, 2 bytes of padding for
an alignment to 4, and one more. -/
def exInp : List UInt8 := [1, 2, 1, 0, 0x13, 0, 0, 0, 3, 4, 1, 0, 5, 6]
def exAs : List Align := [⟨10, 2, 0⟩, ⟨2, 6, 1⟩]

example : ((planBuild exInp exAs true).bind fun p => (planLayout p 0x1002).bind fun q =>
      (emit q exInp q.outSize).map fun out => (out, relaxMap q 8 2, relaxMap q 12 2)) =
    some ([1, 2, 0x13, 0, 0, 0, 3, 4, 1, 0, 5, 6], some (6, true, 6), some (10, true, 2)) := by
  rfl

example : Proper true exInp exAs := by
  refine ⟨?_, ?_, ?_, ?_, ?_⟩
  · intro a ha
    simp only [exAs, List.mem_cons, List.not_mem_nil, or_false] at ha
    rcases ha with rfl | rfl <;> decide
  · intro a ha
    simp only [exAs, List.mem_cons, List.not_mem_nil, or_false] at ha
    rcases ha with rfl | rfl
    · exact .compressed rfl .nil
    · exact .compressed rfl (.full .nil)
  · intro a ha
    simp only [exAs, List.mem_cons, List.not_mem_nil, or_false] at ha
    rcases ha with rfl | rfl
    · exact ⟨2, rfl⟩
    · exact ⟨3, rfl⟩
  · intro a ha
    simp only [exAs, List.mem_cons, List.not_mem_nil, or_false] at ha
    rcases ha with rfl | rfl <;> decide
  · simp [exAs]

end Nature.Relax
