import Verif.Relax.Model
/-
Lemmas for C94.
-/
namespace Nature.Relax

theorem step_eq (rvc : Bool) : (if rvc then 2 else 4) = step rvc := rfl

/-! ### no-operations -/

theorem writeNops4_spec (rvc : Bool) : ∀ (n size : Nat) (l : List UInt8),
    writeNops4 n size = some l → l.length = size ∧ Nops rvc l
  | n, 0, l, h => by
    cases n <;> simp only [writeNops4, Option.some.injEq] at h <;> subst h <;> exact ⟨rfl, .nil⟩
  | 0, size + 1, l, h => by simp [writeNops4] at h
  | n + 1, size + 1, l, h => by
    unfold writeNops4 at h
    split at h
    · cases h
    split at h
    · cases h
    rename_i l' hl'
    simp only [Option.some.injEq] at h
    subst h
    obtain ⟨h1, h2⟩ := writeNops4_spec rvc n _ l' hl'
    refine ⟨?_, .full h2⟩
    simp only [List.length_cons]; omega

theorem writeNops4_some : ∀ (n size : Nat), size ≤ n → size % 4 = 0 →
    ∃ l, writeNops4 n size = some l
  | n, 0, _, _ => ⟨[], by cases n <;> rfl⟩
  | 0, size + 1, h, _ => by omega
  | n + 1, size + 1, h, hm => by
    obtain ⟨l, hl⟩ := writeNops4_some n (size + 1 - 4) (by omega) (by omega)
    refine ⟨0x13 :: 0 :: 0 :: 0 :: l, ?_⟩
    unfold writeNops4
    have : ¬ size + 1 < 4 := by omega
    simp only [this, if_false, hl]

theorem and_two (n : Nat) : (n &&& 2 != 0) = decide (n / 2 % 2 = 1) := by
  have h : n &&& 2 = if n.testBit 1 then 2 else 0 := by
    apply Nat.eq_of_testBit_eq
    intro i
    have h2 : Nat.testBit 2 i = decide (1 = i) := Nat.testBit_two_pow (n := 1)
    rw [Nat.testBit_and, h2]
    by_cases hi : 1 = i
    · subst hi
      cases hb : n.testBit 1 <;> simp [h2]
    · cases hb : n.testBit 1 <;> simp [hi, h2]
  rw [h, Nat.testBit_eq_decide_div_mod_eq]
  by_cases h : n / 2 % 2 = 1 <;> simp [h]

theorem writeNops_spec {size : Nat} {rvc : Bool} {l : List UInt8} (h : writeNops size rvc = some l) :
    l.length = size ∧ Nops rvc l := by
  unfold writeNops at h
  rw [and_two] at h
  split at h
  · rename_i hc
    simp only [Bool.and_eq_true, decide_eq_true_eq] at hc
    split at h
    · cases h
    rename_i l' hl'
    simp only [Option.some.injEq] at h
    subst h
    obtain ⟨h1, h2⟩ := writeNops4_spec rvc _ _ _ hl'
    exact ⟨by simp only [List.length_cons]; omega, .compressed hc.1 h2⟩
  · exact writeNops4_spec rvc _ _ _ h

theorem writeNops_some {size : Nat} {rvc : Bool} (h : size % step rvc = 0) :
    ∃ l, writeNops size rvc = some l := by
  unfold writeNops
  rw [and_two]
  split
  · rename_i hc
    simp only [Bool.and_eq_true, decide_eq_true_eq] at hc
    obtain ⟨l, hl⟩ := writeNops4_some size (size - 2) (by omega) (by
      have := hc.1; subst this; simp only [step, if_true] at h; omega)
    exact ⟨0x01 :: 0 :: l, by rw [hl]⟩
  · rename_i hc
    apply writeNops4_some _ _ (Nat.le_refl _)
    cases rvc
    · simpa [step] using h
    · simp only [Bool.true_and, decide_eq_true_eq] at hc
      simp only [step, if_true] at h
      omega

theorem paddingIsNops_spec {rvc : Bool} : ∀ (n : Nat) (l : List UInt8),
    paddingIsNops rvc n l = true → Nops rvc l
  | n, [], _ => .nil
  | 0, x :: l, h => by simp [paddingIsNops] at h
  | n + 1, x :: l, h => by
    unfold paddingIsNops at h
    split at h
    · rename_i hc
      simp only [Bool.and_eq_true, decide_eq_true_eq, beq_iff_eq] at hc
      have := Nops.compressed hc.1.1 (paddingIsNops_spec n _ h)
      rw [← List.take_append_drop 2 (x :: l), hc.2]
      exact this
    · split at h
      · rename_i hc
        simp only [Bool.and_eq_true, decide_eq_true_eq, beq_iff_eq] at hc
        have := Nops.full (paddingIsNops_spec n _ h)
        rw [← List.take_append_drop 4 (x :: l), hc.2]
        exact this
      · cases h

theorem paddingIsNops_of {rvc : Bool} {l : List UInt8} (h : Nops rvc l) :
    ∀ n, l.length ≤ n → paddingIsNops rvc n l = true := by
  induction h with
  | nil => intro n _; cases n <;> rfl
  | full _ ih =>
    intro n hn
    simp only [List.length_cons] at hn
    obtain ⟨n, rfl⟩ : ∃ m, n = m + 1 := ⟨n - 1, by omega⟩
    unfold paddingIsNops
    simp [ih n (by omega)]
  | compressed hr _ ih =>
    intro n hn
    simp only [List.length_cons] at hn
    obtain ⟨n, rfl⟩ : ∃ m, n = m + 1 := ⟨n - 1, by omega⟩
    unfold paddingIsNops
    subst hr
    simp [ih n (by omega)]

theorem requiredAlignment_spec {padding : Nat} (hp : 0 < padding) : ∀ (n r al : Nat),
    (∃ k, r = 2 ^ k) → (r = 1 ∨ r ≤ 2 * padding) → requiredAlignment padding n r = some al →
    Bound padding al
  | 0, _, _, _, _, h => by simp [requiredAlignment] at h
  | n + 1, r, al, ⟨k, hk⟩, hr, h => by
    unfold requiredAlignment at h
    split at h
    · exact requiredAlignment_spec hp n (2 * r) al ⟨k + 1, by rw [Nat.pow_succ]; omega⟩
        (.inr (by omega)) h
    · simp only [Option.some.injEq] at h
      subst h
      exact ⟨⟨k, hk⟩, by omega, by omega⟩

theorem requiredAlignment_some {padding : Nat} : ∀ (n r : Nat), 0 < r → padding < r * 2 ^ (n - 1) →
    0 < n → ∃ al, requiredAlignment padding n r = some al
  | 0, _, _, _, h => by omega
  | n + 1, r, hr, h, _ => by
    unfold requiredAlignment
    split
    · rename_i hle
      cases n with
      | zero => simp at h; omega
      | succ n =>
        apply requiredAlignment_some (n + 1) (2 * r) (by omega) _ (by omega)
        simp only [Nat.add_sub_cancel] at h ⊢
        rw [Nat.pow_succ] at h
        have : 2 * r * 2 ^ n = r * (2 ^ n * 2) := by
          rw [Nat.mul_comm 2 r, Nat.mul_assoc, Nat.mul_comm 2]
        omega
    · exact ⟨_, rfl⟩

/-! ### the sort -/

theorem insertRegion_perm (x : Region) : ∀ l : List Region, (insertRegion x l).Perm (x :: l)
  | [] => List.Perm.refl _
  | y :: ys => by
    unfold insertRegion
    split
    · exact List.Perm.refl _
    · exact ((insertRegion_perm x ys).cons y).trans (List.Perm.swap x y ys)

theorem sort_perm : ∀ l : List Region, (l.foldr insertRegion []).Perm l
  | [] => List.Perm.refl _
  | x :: l => (insertRegion_perm x _).trans ((sort_perm l).cons x)

def Sorted (l : List Region) : Prop := l.Pairwise fun a b => a.input ≤ b.input

theorem insertRegion_sorted (x : Region) : ∀ l : List Region, Sorted l → Sorted (insertRegion x l)
  | [], _ => by simp [insertRegion, Sorted]
  | y :: ys, h => by
    unfold insertRegion
    unfold Sorted at h ⊢
    rw [List.pairwise_cons] at h
    split
    · rename_i hc
      have hxy : x.input ≤ y.input := by
        unfold regionLe at hc
        split at hc
        · omega
        · split at hc
          · cases hc
          · omega
      rw [List.pairwise_cons, List.pairwise_cons]
      refine ⟨?_, h⟩
      intro z hz
      simp only [List.mem_cons] at hz
      rcases hz with rfl | hz
      · exact hxy
      · exact Nat.le_trans hxy (h.1 z hz)
    · rename_i hc
      have hyx : y.input ≤ x.input := by
        unfold regionLe at hc
        split at hc
        · simp at hc
        · omega
      rw [List.pairwise_cons]
      refine ⟨?_, insertRegion_sorted x ys h.2⟩
      intro z hz
      rw [(insertRegion_perm x ys).mem_iff] at hz
      simp only [List.mem_cons] at hz
      rcases hz with rfl | hz
      · exact hyx
      · exact h.1 z hz

theorem sort_sorted : ∀ l : List Region, Sorted (l.foldr insertRegion [])
  | [] => by simp [Sorted]
  | x :: l => insertRegion_sorted x _ (sort_sorted l)

/-! ### building the plan -/

/-- What is known of a region of the plan. -/
structure Region.Ok (r : Region) (rvc : Bool) (inp : List UInt8) : Prop where
  pos : 0 < r.padding
  inside : r.input + r.padding ≤ inp.length
  bound : Bound r.padding r.alignment
  nops : Nops rvc ((inp.drop r.input).take r.padding)

theorem collect_spec {rvc : Bool} {inp : List UInt8} : ∀ {as : List Align} {rs : List Region},
    collect rvc inp as = some rs →
      (∀ a ∈ as, 0 ≤ a.addend) ∧ (∀ r ∈ rs, r.Ok rvc inp) ∧
      (∀ r ∈ rs, ∃ a ∈ as, a.offset = r.input ∧ a.addend = r.padding) ∧
      (∀ a ∈ as, 0 < a.addend → ∃ r ∈ rs, r.input = a.offset ∧ (r.padding : Int) = a.addend)
  | [], rs, h => by
    simp only [collect, Option.some.injEq] at h
    subst h
    simp
  | a :: as, rs, h => by
    unfold collect at h
    split at h
    · cases h
    rename_i h0
    simp only at h
    split at h
    · cases h
    rename_i h1
    split at h
    · rename_i h2
      obtain ⟨r1, r2, r3, r4⟩ := collect_spec h
      refine ⟨?_, r2, ?_, ?_⟩
      · intro x hx
        simp only [List.mem_cons] at hx
        rcases hx with rfl | hx
        · omega
        · exact r1 x hx
      · intro r hr
        obtain ⟨b, hb, h⟩ := r3 r hr
        exact ⟨b, by simp [hb], h⟩
      · intro x hx hp
        simp only [List.mem_cons] at hx
        rcases hx with rfl | hx
        · omega
        · exact r4 x hx hp
    rename_i h2
    rw [step_eq] at h
    split at h
    · cases h
    split at h
    · cases h
    rename_i h4
    split at h
    · cases h
    rename_i al hal
    split at h
    · cases h
    rename_i rs' hrs'
    simp only [Option.some.injEq] at h
    subst h
    obtain ⟨r1, r2, r3, r4⟩ := collect_spec hrs'
    have hpos : 0 < a.addend.toNat := by omega
    refine ⟨?_, ?_, ?_, ?_⟩
    · intro x hx
      simp only [List.mem_cons] at hx
      rcases hx with rfl | hx
      · omega
      · exact r1 x hx
    · intro r hr
      simp only [List.mem_cons] at hr
      rcases hr with rfl | hr
      · exact ⟨hpos, by simp only; omega,
          requiredAlignment_spec hpos _ _ _ ⟨0, rfl⟩ (.inl rfl) hal,
          paddingIsNops_spec _ _ (by simpa using h4)⟩
      · exact r2 r hr
    · intro r hr
      simp only [List.mem_cons] at hr
      rcases hr with rfl | hr
      · exact ⟨a, by simp, rfl, by simp only; omega⟩
      · obtain ⟨b, hb, h⟩ := r3 r hr
        exact ⟨b, by simp [hb], h⟩
    · intro x hx hp
      simp only [List.mem_cons] at hx
      rcases hx with rfl | hx
      · exact ⟨_, List.mem_cons_self, rfl, by simp only; omega⟩
      · obtain ⟨r, hr, h⟩ := r4 x hx hp
        exact ⟨r, by simp [hr], h⟩

/-! ### the layout -/

/-- The regions follow each other from `src`, without overlap. -/
def Follows : Nat → List Region → Prop
  | _, [] => True
  | src, r :: rs => src ≤ r.input ∧ Follows (r.input + r.padding) rs

theorem noOverlap_follows : ∀ {src : Nat} {rs : List Region}, noOverlap src rs = true →
    Follows src rs
  | _, [], _ => trivial
  | src, r :: rs, h => by
    unfold noOverlap at h
    split at h
    · cases h
    · exact ⟨by omega, noOverlap_follows h⟩

/-- The sum of what is removed. -/
def removed : List Region → Nat
  | [] => 0
  | r :: rs => (r.padding - r.kept) + removed rs

/-- The regions, each with its place in the output, from offset `src` of the input, which is at `dst`
of the output. -/
def Chain (rvc : Bool) (address n : Nat) : Nat → Nat → List Region → Prop
  | src, _, [] => src ≤ n
  | src, dst, r :: rs => src ≤ r.input ∧ r.output = dst + (r.input - src) ∧ r.kept ≤ r.padding ∧
      0 < r.padding ∧ r.kept % step rvc = 0 ∧ (address + r.output + r.kept) % r.alignment = 0 ∧
      r.kept < r.alignment ∧ r.input + r.padding ≤ n ∧
      Chain rvc address n (r.input + r.padding) (r.output + r.kept) rs

theorem align_up (place al : Nat) (h : 0 < al) :
    (place + (al - place % al) % al) % al = 0 := by
  have h1 := Nat.mod_lt place h
  by_cases h0 : place % al = 0
  · rw [h0, Nat.sub_zero, Nat.mod_self, Nat.add_zero]; exact h0
  · rw [Nat.mod_eq_of_lt (by omega : al - place % al < al)]
    have h2 := Nat.div_add_mod place al
    have h3 : place + (al - place % al) = al * (place / al + 1) := by rw [Nat.mul_add]; omega
    rw [h3, Nat.mul_mod_right]

theorem layoutPass_spec {rvc : Bool} {address : Nat} {inp : List UInt8} :
    ∀ {src deleted : Nat} {rs rs' : List Region} {d : Nat}, deleted ≤ src → src ≤ inp.length →
      Follows src rs → (∀ r ∈ rs, r.Ok rvc inp) →
      layoutPass rvc address deleted rs = some (rs', d) →
      Chain rvc address inp.length src (src - deleted) rs' ∧ d = deleted + removed rs' ∧
        rs'.map (fun r => (r.input, r.padding, r.alignment)) =
          rs.map (fun r => (r.input, r.padding, r.alignment))
  | src, deleted, [], rs', d, h1, h2, _, _, h => by
    simp only [layoutPass, Option.some.injEq, Prod.mk.injEq] at h
    obtain ⟨rfl, rfl⟩ := h
    exact ⟨h2, by simp [removed], rfl⟩
  | src, deleted, r :: rs, rs', d, h1, h2, hf, hok, h => by
    unfold layoutPass at h
    simp only at h
    rw [step_eq] at h
    split at h
    · cases h
    split at h
    · cases h
    rename_i hk
    split at h
    · cases h
    split at h
    · cases h
    rename_i rs1 d1 h3
    simp only [Option.some.injEq, Prod.mk.injEq] at h
    obtain ⟨rfl, rfl⟩ := h
    have ho := hok r (by simp)
    have hal : 0 < r.alignment := Nat.lt_of_le_of_lt (Nat.zero_le _) ho.bound.above
    obtain ⟨hf1, hf2⟩ := hf
    generalize hkept : (r.alignment - (address + (r.input - deleted)) % r.alignment) %
      r.alignment = kept at *
    have hk1 : kept ≤ r.padding := by omega
    have hk2 : kept % step rvc = 0 := by
      have : ¬ kept % step rvc ≠ 0 := by intro hc; exact hk (.inr hc)
      omega
    have hin := ho.inside
    obtain ⟨e1, e2, e3⟩ := layoutPass_spec (src := r.input + r.padding) (by omega) hin hf2
      (fun x hx => hok x (by simp [hx])) h3
    have hdst : r.input + r.padding - (deleted + (r.padding - kept)) = r.input - deleted + kept := by
      omega
    rw [hdst] at e1
    refine ⟨⟨hf1, by simp only; omega, hk1, ho.pos, hk2, ?_, ?_, hin, e1⟩, ?_, ?_⟩
    · simp only
      rw [← hkept]; exact align_up _ _ hal
    · simp only
      rw [← hkept]; exact Nat.mod_lt _ hal
    · simp only [removed]; omega
    · simp [e3]

/-! ### positions -/

/-- The position in the output of an offset that is not in the middle of padding. -/
def pos : List Region → Nat → Nat → Nat → Nat
  | [], src, dst, x => dst + (x - src)
  | r :: rs, src, dst, x =>
    if x ≤ r.input then dst + (x - src)
    else pos rs (r.input + r.padding) (r.output + r.kept) x

/-- No region has a byte in common with the `w` bytes at `x`, and `x` is not in the middle of one. -/
def Clear (rs : List Region) (x w : Nat) : Prop :=
  ∀ r ∈ rs, r.input + r.padding ≤ x ∨ x + w ≤ r.input

theorem pos_ge {rvc : Bool} {address n : Nat} : ∀ {rs : List Region} {src dst : Nat} (x : Nat),
    Chain rvc address n src dst rs → dst ≤ pos rs src dst x
  | [], _, _, _, _ => by simp [pos]
  | r :: rs, src, dst, x, h => by
    obtain ⟨c1, c2, c3, c4, c5, c6, c7, c8, c9⟩ := h
    unfold pos
    split
    · omega
    · have := pos_ge x c9
      omega

theorem pos_src {rvc : Bool} {address n : Nat} {rs : List Region} {src dst : Nat}
    (h : Chain rvc address n src dst rs) : pos rs src dst src = dst := by
  cases rs with
  | nil => simp [pos]
  | cons r rs =>
    have := h.1
    simp [pos, this]

theorem pos_mono {rvc : Bool} {address n : Nat} : ∀ {rs : List Region} {src dst : Nat} {x y w : Nat},
    Chain rvc address n src dst rs → src ≤ x → x + w ≤ y → Clear rs x w → Clear rs y 0 →
    pos rs src dst x + w ≤ pos rs src dst y
  | [], src, dst, x, y, w, _, _, _, _, _ => by simp only [pos]; omega
  | r :: rs, src, dst, x, y, w, h, h1, h2, hx, hy => by
    obtain ⟨c1, c2, c3, c4, c5, c6, c7, c8, c9⟩ := h
    have hxr := hx r (by simp)
    have hyr := hy r (by simp)
    unfold pos
    by_cases hx1 : x ≤ r.input
    · simp only [hx1, if_true]
      by_cases hy1 : y ≤ r.input
      · simp only [hy1, if_true]; omega
      · simp only [hy1, if_false]
        have := pos_ge y c9
        omega
    · have hy1 : ¬ y ≤ r.input := by omega
      simp only [hx1, hy1, if_false]
      exact pos_mono c9 (by omega) h2 (fun r hr => hx r (by simp [hr]))
        (fun r hr => hy r (by simp [hr]))

theorem mapLoop_pos {rvc : Bool} {address n : Nat} : ∀ {rs : List Region} {src dst : Nat} {x w : Nat},
    Chain rvc address n src dst rs → src ≤ x → Clear rs x w →
    mapLoop x w rs (dst + (x - src)) = (pos rs src dst x, true)
  | [], src, dst, x, w, _, _, _ => by simp [mapLoop, pos]
  | r :: rs, src, dst, x, w, h, h1, hx => by
    obtain ⟨c1, c2, c3, c4, c5, c6, c7, c8, c9⟩ := h
    have hxr := hx r (by simp)
    unfold mapLoop pos
    simp only
    by_cases hge : x ≥ r.input + r.padding
    · have hn : ¬ x ≤ r.input := by omega
      simp only [hge, if_true, hn, if_false]
      have := mapLoop_pos (w := w) c9 hge (fun r hr => hx r (by simp [hr]))
      rw [← this]
      congr 1
      omega
    · have hle : x ≤ r.input := by omega
      simp only [hge, if_false, hle, if_true]
      by_cases hlt : x < r.input + r.kept
      · have hno : ¬ (w ≠ 0 ∧ x + w > r.input + r.kept ∧ x < r.input + r.padding) := by omega
        simp only [hlt, if_true, hno, if_false]
      · have he : x = r.input := by omega
        have hw : w = 0 := by omega
        subst he
        simp only [hlt, if_false, hw, and_self, if_true, c2]

theorem pos_ends {rvc : Bool} {address n : Nat} : ∀ {rs : List Region} {src dst : Nat},
    Chain rvc address n src dst rs → ∀ r ∈ rs, pos rs src dst r.input = r.output ∧
      pos rs src dst (r.input + r.padding) = r.output + r.kept ∧ src ≤ r.input ∧ dst ≤ r.output ∧
      (address + r.output + r.kept) % r.alignment = 0 ∧ r.kept < r.alignment ∧
      Clear rs r.input 0 ∧ Clear rs (r.input + r.padding) 0
  | [], _, _, _, _, hr => by cases hr
  | q :: rs, src, dst, h, r, hr => by
    obtain ⟨c1, c2, c3, c4, c5, c6, c7, c8, c9⟩ := h
    have hlater : ∀ {rs : List Region} {src dst : Nat}, Chain rvc address n src dst rs →
        ∀ r ∈ rs, src ≤ r.input := by
      intro rs
      induction rs with
      | nil => intro _ _ _ r hr; cases hr
      | cons p rs ih =>
        intro src dst h r hr
        simp only [List.mem_cons] at hr
        rcases hr with rfl | hr
        · exact h.1
        · have := ih h.2.2.2.2.2.2.2.2 r hr
          have := h.1
          omega
    simp only [List.mem_cons] at hr
    rcases hr with rfl | hr
    · have hn : ¬ r.input + r.padding ≤ r.input := by omega
      unfold pos
      simp only [Nat.le_refl, if_true, hn, if_false]
      refine ⟨by omega, pos_src c9, c1, by omega, c6, c7, ?_, ?_⟩
      · intro p hp
        simp only [List.mem_cons] at hp
        rcases hp with rfl | hp
        · exact .inr (by omega)
        · have := hlater c9 p hp
          exact .inr (by omega)
      · intro p hp
        simp only [List.mem_cons] at hp
        rcases hp with rfl | hp
        · exact .inl (by omega)
        · have := hlater c9 p hp
          exact .inr (by omega)
    · obtain ⟨i1, i2, i3, i4, i5, i6, i7, i8⟩ := pos_ends c9 r hr
      have hn1 : ¬ r.input ≤ q.input := by omega
      have hn2 : ¬ r.input + r.padding ≤ q.input := by omega
      unfold pos
      simp only [hn1, hn2, if_false]
      refine ⟨i1, i2, by omega, by omega, i5, i6, ?_, ?_⟩
      · intro p hp
        simp only [List.mem_cons] at hp
        rcases hp with rfl | hp
        · exact .inl (by omega)
        · exact i7 p hp
      · intro p hp
        simp only [List.mem_cons] at hp
        rcases hp with rfl | hp
        · exact .inl (by omega)
        · exact i8 p hp

/-! ### the output -/

theorem emitLoop_some {rvc : Bool} {address : Nat} {inp : List UInt8} :
    ∀ {rs : List Region} {src dst : Nat}, Chain rvc address inp.length src dst rs →
      ∃ l, emitLoop rvc inp src rs = some l ∧ l.length + removed rs = inp.length - src
  | [], src, dst, h => ⟨_, rfl, by simp [removed]⟩
  | r :: rs, src, dst, h => by
    obtain ⟨c1, c2, c3, c4, c5, c6, c7, c8, c9⟩ := h
    obtain ⟨l, hl, hlen⟩ := emitLoop_some c9
    have : ∃ nops, (if r.kept ≠ 0 then writeNops r.kept rvc else some []) = some nops ∧
        nops.length = r.kept := by
      split
      · obtain ⟨x, hx⟩ := writeNops_some c5
        exact ⟨x, hx, (writeNops_spec hx).1⟩
      · rename_i hz
        exact ⟨[], rfl, by simp at hz; simp [hz]⟩
    obtain ⟨nops, hn, hnl⟩ := this
    refine ⟨(inp.drop src).take (r.input - src) ++ nops ++ l, ?_, ?_⟩
    · simp only [emitLoop, hn, hl]
    · simp only [removed, List.length_append, List.length_take, List.length_drop, hnl]
      omega

theorem emitLoop_cons {rvc : Bool} {inp : List UInt8} {r : Region} {rs : List Region} {src : Nat}
    {l : List UInt8} (h : emitLoop rvc inp src (r :: rs) = some l) :
    ∃ nops l', l = (inp.drop src).take (r.input - src) ++ nops ++ l' ∧ nops.length = r.kept ∧
      Nops rvc nops ∧ emitLoop rvc inp (r.input + r.padding) rs = some l' := by
  unfold emitLoop at h
  split at h
  · cases h
  rename_i nops hn
  split at h
  · cases h
  rename_i l' hl'
  simp only [Option.some.injEq] at h
  have : nops.length = r.kept ∧ Nops rvc nops := by
    split at hn
    · exact writeNops_spec hn
    · rename_i hz
      simp only [Option.some.injEq] at hn
      subst hn
      exact ⟨by simp at hz; simp [hz], .nil⟩
  exact ⟨nops, l', h.symm, this.1, this.2, hl'⟩

theorem emit_code {rvc : Bool} {address : Nat} {inp : List UInt8} :
    ∀ {rs : List Region} {src dst : Nat} {l : List UInt8} {x w : Nat},
      Chain rvc address inp.length src dst rs → emitLoop rvc inp src rs = some l → src ≤ x →
      x + w ≤ inp.length → Clear rs x w →
      pos rs src dst x + w ≤ dst + l.length ∧
        ∀ i < w, l[pos rs src dst x - dst + i]? = inp[x + i]?
  | [], src, dst, l, x, w, h, hl, h1, h2, hx => by
    simp only [emitLoop, Option.some.injEq] at hl
    subst hl
    simp only [pos, List.length_drop]
    refine ⟨by omega, ?_⟩
    intro i hi
    rw [List.getElem?_drop]
    congr 1; omega
  | r :: rs, src, dst, l, x, w, h, hl, h1, h2, hx => by
    obtain ⟨c1, c2, c3, c4, c5, c6, c7, c8, c9⟩ := h
    obtain ⟨nops, l', rfl, hn, _, hl'⟩ := emitLoop_cons hl
    have hxr := hx r (by simp)
    have hlen : ((inp.drop src).take (r.input - src)).length = r.input - src := by
      simp only [List.length_take, List.length_drop]; omega
    unfold pos
    by_cases hle : x ≤ r.input
    · simp only [hle, if_true, List.length_append, hlen]
      refine ⟨by omega, ?_⟩
      intro i hi
      rw [List.append_assoc, List.getElem?_append_left (by rw [hlen]; omega),
        List.getElem?_take_of_lt (by omega), List.getElem?_drop]
      congr 1; omega
    · simp only [hle, if_false]
      have hge : r.input + r.padding ≤ x := by omega
      obtain ⟨e1, e2⟩ := emit_code c9 hl' hge h2 (fun r hr => hx r (by simp [hr]))
      have hp := pos_ge x c9
      refine ⟨by simp only [List.length_append, hlen, hn]; omega, ?_⟩
      intro i hi
      rw [← e2 i hi, List.getElem?_append_right (by simp only [List.length_append, hlen, hn]; omega)]
      congr 1
      simp only [List.length_append, hlen, hn]; omega

theorem emit_nops {rvc : Bool} {address : Nat} {inp : List UInt8} :
    ∀ {rs : List Region} {src dst : Nat} {l : List UInt8},
      Chain rvc address inp.length src dst rs → emitLoop rvc inp src rs = some l →
      ∀ r ∈ rs, r.output - dst + r.kept ≤ l.length ∧
        Nops rvc ((l.drop (r.output - dst)).take r.kept)
  | [], _, _, _, _, _, _, hr => by cases hr
  | q :: rs, src, dst, l, h, hl, r, hr => by
    obtain ⟨c1, c2, c3, c4, c5, c6, c7, c8, c9⟩ := h
    obtain ⟨nops, l', rfl, hn, hnn, hl'⟩ := emitLoop_cons hl
    have hlen : ((inp.drop src).take (q.input - src)).length = q.input - src := by
      simp only [List.length_take, List.length_drop]; omega
    simp only [List.mem_cons] at hr
    rcases hr with rfl | hr
    · have : r.output - dst = ((inp.drop src).take (r.input - src)).length := by rw [hlen]; omega
      refine ⟨by simp only [List.length_append, hlen, hn]; omega, ?_⟩
      rw [this, List.append_assoc, List.drop_left, ← hn, List.take_left]
      exact hnn
    · obtain ⟨e1, e2⟩ := emit_nops c9 hl' r hr
      have hd := (pos_ends c9 r hr).2.2.2.1
      refine ⟨by simp only [List.length_append, hlen, hn]; omega, ?_⟩
      have hidx : r.output - dst = ((inp.drop src).take (q.input - src) ++ nops).length +
          (r.output - (q.output + q.kept)) := by
        simp only [List.length_append, hlen, hn]; omega
      rw [hidx, List.drop_append]
      simp only [Nat.add_sub_cancel_left]
      rw [List.drop_eq_nil_of_le (Nat.le_add_right _ _), List.nil_append]
      exact e2

theorem emit_cover {rvc : Bool} {address : Nat} {inp : List UInt8} :
    ∀ {rs : List Region} {src dst : Nat} {l : List UInt8} {j : Nat},
      Chain rvc address inp.length src dst rs → emitLoop rvc inp src rs = some l → j < l.length →
      (∃ x, src ≤ x ∧ x < inp.length ∧ Clear rs x 1 ∧ pos rs src dst x = dst + j) ∨
        ∃ r ∈ rs, r.output ≤ dst + j ∧ dst + j < r.output + r.kept
  | [], src, dst, l, j, h, hl, hj => by
    simp only [emitLoop, Option.some.injEq] at hl
    subst hl
    simp only [List.length_drop] at hj
    refine .inl ⟨src + j, by omega, by omega, ?_, by simp only [pos]; omega⟩
    intro r hr
    cases hr
  | r :: rs, src, dst, l, j, h, hl, hj => by
    have hcc := h
    obtain ⟨c1, c2, c3, c4, c5, c6, c7, c8, c9⟩ := h
    obtain ⟨nops, l', rfl, hn, hnn, hl'⟩ := emitLoop_cons hl
    have hlen : ((inp.drop src).take (r.input - src)).length = r.input - src := by
      simp only [List.length_take, List.length_drop]; omega
    simp only [List.length_append, hlen, hn] at hj
    by_cases h1 : j < r.input - src
    · left
      refine ⟨src + j, by omega, by omega, ?_, ?_⟩
      · intro p hp
        simp only [List.mem_cons] at hp
        rcases hp with rfl | hp
        · exact .inr (by omega)
        · have := (pos_ends c9 p hp).2.2.1
          exact .inr (by omega)
      · have : src + j ≤ r.input := by omega
        simp only [pos, this, if_true]; omega
    · by_cases h2 : j < r.input - src + r.kept
      · exact .inr ⟨r, by simp, by omega, by omega⟩
      · rcases emit_cover (j := j - (r.input - src) - r.kept) c9 hl' (by omega) with
          ⟨x, e1, e2, e3, e4⟩ | ⟨q, hq, e1, e2⟩
        · left
          refine ⟨x, by omega, e2, ?_, ?_⟩
          · intro p hp
            simp only [List.mem_cons] at hp
            rcases hp with rfl | hp
            · exact .inl e1
            · exact e3 p hp
          · have : ¬ x ≤ r.input := by omega
            simp only [pos, this, if_false, e4]; omega
        · exact .inr ⟨q, by simp [hq], by omega, by omega⟩

end Nature.Relax
