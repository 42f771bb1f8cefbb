import Verif.Merge.Lemmas
/-
Where merged fragments come to lie, and that they are written there.
-/
namespace Nature.Merge

theorem mergeAlign_spec {v a o : Nat} (h : mergeAlign v a = some o) (ha : 0 < a) :
    v ≤ o ∧ o % a = 0 := by
  unfold mergeAlign at h
  have h0 : a ≠ 0 := by omega
  simp only [h0, if_false] at h
  split at h
  · cases h
  simp only [Option.some.injEq] at h
  subst h
  refine ⟨?_, Nat.mul_mod_left _ _⟩
  have e := Nat.div_add_mod (v + (a - 1)) a
  have := Nat.mod_lt (v + (a - 1)) ha
  rw [Nat.mul_comm] at e
  omega

theorem mergeAdd_spec {a b c : Nat} (h : mergeAdd a b = some c) : 
    c = a + b ∧ c ≤ maxU64 := by
  unfold mergeAdd at h
  split at h
  · cases h
  · simp only [Option.some.injEq] at h
    subst h
    exact ⟨rfl, by omega⟩

theorem pow_pos' {a : Nat} (h : ∃ k, a = 2 ^ k) : 0 < a := by
  obtain ⟨k, rfl⟩ := h; exact Nat.pow_pos (by decide)

theorem pow_dvd_of_le {a b : Nat} (ha : ∃ k, a = 2 ^ k) (hb : ∃ k, b = 2 ^ k) (h : a ≤ b) : a ∣ b := by
  obtain ⟨k, rfl⟩ := ha
  obtain ⟨l, rfl⟩ := hb
  exact Nat.pow_dvd_pow 2 ((Nat.pow_le_pow_iff_right (by decide)).1 h)

theorem place_spec {frags : List Frag} (hp : Pow frags) :
    ∀ (is : List Nat) (size align : Nat) (off : Nat → Nat) (sz al : Nat) (off' : Nat → Nat),
    is.Nodup → (∃ k, align = 2 ^ k) → place frags is size align off = some (sz, al, off') →
    size ≤ sz ∧ align ≤ al ∧ (∃ k, al = 2 ^ k) ∧ (∀ j, j ∉ is → off' j = off j) ∧
    (∀ i ∈ is, ∃ f, frags[i]? = some f ∧ size ≤ off' i ∧ off' i + f.bytes.length ≤ sz ∧
      off' i % f.align = 0 ∧ f.align ≤ al) ∧
    (∀ i ∈ is, ∀ j ∈ is, i ≠ j → ∀ f g, frags[i]? = some f → frags[j]? = some g →
      off' i + f.bytes.length ≤ off' j ∨ off' j + g.bytes.length ≤ off' i)
  | [], size, align, off, sz, al, off', _, hal, h => by
    simp only [place, Option.some.injEq, Prod.mk.injEq] at h
    obtain ⟨rfl, rfl, rfl⟩ := h
    exact ⟨Nat.le_refl _, Nat.le_refl _, hal, fun _ _ => rfl, by simp, by simp⟩
  | i :: is, size, align, off, sz, al, off', hnd, hal, h => by
    simp only [List.nodup_cons] at hnd
    unfold place at h
    split at h
    · cases h
    rename_i f hf
    split at h
    · cases h
    rename_i o ho
    split at h
    · cases h
    rename_i size2 hs2
    have hfp : ∃ k, f.align = 2 ^ k := hp f (List.mem_iff_getElem?.2 ⟨i, hf⟩)
    obtain ⟨a1, a2⟩ := mergeAlign_spec ho (pow_pos' hfp)
    obtain ⟨rfl, _⟩ := mergeAdd_spec hs2
    have hal2 : ∃ k, (if f.align > align then f.align else align) = 2 ^ k := by
      split
      · exact hfp
      · exact hal
    obtain ⟨r1, r2, r3, r4, r5, r6⟩ := place_spec hp is _ _ _ sz al off' hnd.2 hal2 h
    have hoi : off' i = o := by rw [r4 i hnd.1]; simp
    have hale : f.align ≤ al ∧ align ≤ al := by
      by_cases hc : f.align > align
      · simp only [hc, if_true] at r2; omega
      · simp only [hc, if_false] at r2; omega
    refine ⟨by omega, hale.2, r3, ?_, ?_, ?_⟩
    · intro j hj
      simp only [List.mem_cons, not_or] at hj
      rw [r4 j hj.2]
      simp [hj.1]
    · intro j hj
      simp only [List.mem_cons] at hj
      rcases hj with rfl | hj
      · refine ⟨f, hf, ?_, ?_, ?_, hale.1⟩
        · omega
        · omega
        · rw [hoi]; exact a2
      · obtain ⟨g, g1, g2, g3, g4, g5⟩ := r5 j hj
        exact ⟨g, g1, by omega, g3, g4, g5⟩
    · intro x hx y hy hxy p q hp' hq'
      simp only [List.mem_cons] at hx hy
      rcases hx with rfl | hx <;> rcases hy with rfl | hy
      · exact absurd rfl hxy
      · rw [hf] at hp'
        cases hp'
        obtain ⟨g, g1, g2, g3, g4, g5⟩ := r5 y hy
        left; omega
      · rw [hf] at hq'
        cases hq'
        obtain ⟨g, g1, g2, g3, g4, g5⟩ := r5 x hx
        right; omega
      · exact r6 x hx y hy hxy p q hp' hq'

theorem insertFrag_perm (x : Nat × Frag) :
    ∀ l : List (Nat × Frag), (insertFrag x l).Perm (x :: l)
  | [] => List.Perm.refl _
  | y :: ys => by
    unfold insertFrag
    split
    · exact List.Perm.refl _
    · exact ((insertFrag_perm x ys).cons y).trans (List.Perm.swap x y ys)

theorem foldr_insertFrag_perm : ∀ l : List (Nat × Frag), (l.foldr insertFrag []).Perm l
  | [] => List.Perm.refl _
  | x :: l => (insertFrag_perm x _).trans ((foldr_insertFrag_perm l).cons x)

theorem order_perm (frags : List Frag) : (order frags).Perm (List.range frags.length) := by
  unfold order
  have h := (foldr_insertFrag_perm ((List.range frags.length).zip frags)).map (·.1)
  have e : ((List.range frags.length).zip frags).map (·.1) = List.range frags.length := by
    rw [List.map_fst_zip]; simp
  rw [e] at h
  exact h

/-- A group is well placed between `lo` and `hi`. -/
structure Good (p : Placed) (lo hi : Nat) : Prop where
  lo : lo ≤ p.base
  hi : p.base + p.size ≤ hi
  frag : ∀ (i : Nat) (f : Frag), p.group.frags[i]? = some f →
    p.off i + f.bytes.length ≤ p.size ∧ (p.base + p.off i) % f.align = 0 ∧ f.align ≤ p.align
  apart : ∀ (i j : Nat) (f g : Frag), i ≠ j → p.group.frags[i]? = some f → p.group.frags[j]? = some g →
    p.off i + f.bytes.length ≤ p.off j ∨ p.off j + g.bytes.length ≤ p.off i

theorem finalizeGroup_spec {g : Group} {outs outs' : Nat → Output} {p : Placed} (hp : Pow g.frags)
    (h : finalizeGroup g outs = some (p, outs')) :
    p.group = g ∧ Good p (outs g.output).size (outs' g.output).size ∧
      p.align ≤ (outs' g.output).align ∧
      (∀ o, (outs o).size ≤ (outs' o).size ∧ (outs o).align ≤ (outs' o).align) ∧
      ((∀ o, (outs o).size ≤ maxU64) → ∀ o, (outs' o).size ≤ maxU64) := by
  unfold finalizeGroup at h
  split at h
  · cases h
  rename_i size align off hpl
  split at h
  · cases h
  rename_i base hb
  split at h
  · cases h
  rename_i total ht
  simp only [Option.some.injEq, Prod.mk.injEq] at h
  obtain ⟨rfl, rfl⟩ := h
  have hperm := order_perm g.frags
  have hnd : (order g.frags).Nodup := hperm.symm.nodup List.nodup_range
  obtain ⟨r1, r2, r3, r4, r5, r6⟩ := place_spec hp _ _ _ _ _ _ _ hnd ⟨0, rfl⟩ hpl
  have hmem : ∀ (i : Nat) (f : Frag), g.frags[i]? = some f → i ∈ order g.frags := by
    intro i f hf
    rw [hperm.mem_iff, List.mem_range]
    exact (List.getElem?_eq_some_iff.1 hf).1
  obtain ⟨b1, b2⟩ := mergeAlign_spec hb (pow_pos' r3)
  obtain ⟨rfl, t2⟩ := mergeAdd_spec ht
  refine ⟨rfl, ⟨b1, by simp, ?_, ?_⟩, ?_, ?_, ?_⟩
  · intro i f hf
    obtain ⟨f', e1, e2, e3, e4, e5⟩ := r5 i (hmem i f hf)
    simp only at hf
    rw [hf] at e1
    cases e1
    refine ⟨e3, ?_, e5⟩
    have hd : f.align ∣ base :=
      Nat.dvd_trans (pow_dvd_of_le (hp f (List.mem_iff_getElem?.2 ⟨i, hf⟩)) r3 e5)
        (Nat.dvd_of_mod_eq_zero b2)
    exact Nat.mod_eq_zero_of_dvd (Nat.dvd_add hd (Nat.dvd_of_mod_eq_zero e4))
  · intro i j f f' hij hf hf'
    exact r6 i (hmem i f hf) j (hmem j f' hf') hij f f' hf hf'
  · simp only [if_true]
    split <;> omega
  · intro o
    by_cases ho : o = g.output
    · subst ho
      simp only [if_true]
      refine ⟨by omega, ?_⟩
      split <;> omega
    · simp [ho]
  · intro hall o
    by_cases ho : o = g.output
    · subst ho
      simp only [if_true]
      exact t2
    · simp only [ho, if_false]; exact hall o

/-- All groups are well placed, one behind the other. -/
theorem finalize_spec : ∀ {gs : List Group} {outs outs' : Nat → Output} {ps : List Placed},
    (∀ g ∈ gs, Pow g.frags) → finalize gs outs = some (ps, outs') →
    ps.map (·.group) = gs ∧
    (∀ p ∈ ps, Good p (outs p.group.output).size (outs' p.group.output).size ∧
      p.align ≤ (outs' p.group.output).align) ∧
    ps.Pairwise (fun p q => p.group.output = q.group.output → p.base + p.size ≤ q.base) ∧
    (∀ o, (outs o).size ≤ (outs' o).size ∧ (outs o).align ≤ (outs' o).align) ∧
    ((∀ o, (outs o).size ≤ maxU64) → ∀ o, (outs' o).size ≤ maxU64)
  | [], outs, outs', ps, _, h => by
    simp only [finalize, Option.some.injEq, Prod.mk.injEq] at h
    obtain ⟨rfl, rfl⟩ := h
    exact ⟨rfl, by simp, .nil, fun _ => ⟨Nat.le_refl _, Nat.le_refl _⟩, id⟩
  | g :: gs, outs, outs', ps, hp, h => by
    unfold finalize at h
    split at h
    · cases h
    rename_i p outs1 h1
    split at h
    · cases h
    rename_i ps1 outs2 h2
    simp only [Option.some.injEq, Prod.mk.injEq] at h
    obtain ⟨rfl, rfl⟩ := h
    obtain ⟨e1, e2, e3, e4, e5⟩ := finalizeGroup_spec (hp g (by simp)) h1
    obtain ⟨f1, f2, f3, f4, f5⟩ := finalize_spec (fun x hx => hp x (by simp [hx])) h2
    subst e1
    refine ⟨by simp [f1], ?_, ?_, ?_, fun h => f5 (e5 h)⟩
    · intro q hq
      simp only [List.mem_cons] at hq
      rcases hq with rfl | hq
      · exact ⟨⟨e2.lo, Nat.le_trans e2.hi (f4 _).1, e2.frag, e2.apart⟩,
          Nat.le_trans e3 (f4 _).2⟩
      · obtain ⟨g1, g2⟩ := f2 q hq
        exact ⟨⟨Nat.le_trans (e4 _).1 g1.lo, g1.hi, g1.frag, g1.apart⟩, g2⟩
    · refine .cons ?_ f3
      intro q hq ho
      have := (f2 q hq).1.lo
      have := e2.hi
      rw [ho] at this
      omega
    · intro o
      exact ⟨Nat.le_trans (e4 o).1 (f4 o).1, Nat.le_trans (e4 o).2 (f4 o).2⟩

/-! ### writing -/

/-- Two writes touch no common byte. -/
def Write.apart (v w : Write) : Prop :=
  v.output = w.output → v.pos + v.bytes.length ≤ w.pos ∨ w.pos + w.bytes.length ≤ v.pos

theorem emit_spec {outs : Nat → Output} : ∀ (ws : List Write) (d d' : Data),
    emit outs ws d = some d' →
    (∀ o x, (∀ w ∈ ws, ¬ (o = w.output ∧ w.pos ≤ x ∧ x < w.pos + w.bytes.length)) →
      d' o x = d o x) ∧
    (ws.Pairwise Write.apart → ∀ w ∈ ws, ∀ i < w.bytes.length,
      d' w.output (w.pos + i) = w.bytes.getD i 0)
  | [], d, d', h => by
    simp only [emit, Option.some.injEq] at h
    subst h
    exact ⟨fun _ _ _ => rfl, by simp⟩
  | w :: ws, d, d', h => by
    unfold emit at h
    split at h
    · cases h
    obtain ⟨h1, h2⟩ := emit_spec ws _ d' h
    refine ⟨?_, ?_⟩
    · intro o x hx
      rw [h1 o x (fun v hv => hx v (by simp [hv]))]
      have := hx w (by simp)
      simp only [Write.run, this, if_false]
    · intro hp v hv i hi
      obtain ⟨hp1, hp2⟩ := List.pairwise_cons.1 hp
      simp only [List.mem_cons] at hv
      rcases hv with rfl | hv
      · rw [h1]
        · have : (v.output = v.output ∧ v.pos ≤ v.pos + i ∧ v.pos + i < v.pos + v.bytes.length) :=
            ⟨rfl, by omega, by omega⟩
          simp only [Write.run, this, and_self, if_true]
          congr 1
          omega
        · intro u hu hc
          have := hp1 u hu hc.1
          omega
      · exact h2 hp2 v hv i hi

theorem emit_succeeds {outs : Nat → Output} : ∀ (ws : List Write) (d : Data),
    (∀ w ∈ ws, w.pos + w.bytes.length ≤ (outs w.output).size ∧ (outs w.output).size ≤ maxU64) →
    ∃ d', emit outs ws d = some d'
  | [], d, _ => ⟨d, rfl⟩
  | w :: ws, d, h => by
    obtain ⟨h1, h2⟩ := h w (by simp)
    have hn : ¬ (w.pos > maxU64 ∨ w.pos > (outs w.output).size ∨
        w.bytes.length > (outs w.output).size - w.pos) := by omega
    obtain ⟨d', hd⟩ := emit_succeeds ws (w.run d) (fun v hv => h v (by simp [hv]))
    exact ⟨d', by simp only [emit, hn, if_false]; exact hd⟩

theorem mem_writesOf {p : Placed} {w : Write} : w ∈ writesOf p ↔ ∃ (i : Nat) (f : Frag),
    p.group.frags[i]? = some f ∧ w = ⟨p.group.output, p.base + p.off i, f.bytes⟩ := by
  unfold writesOf
  simp only [List.mem_map]
  constructor
  · rintro ⟨⟨i, f⟩, hm, rfl⟩
    obtain ⟨k, hk⟩ := List.mem_iff_getElem?.1 hm
    rw [List.getElem?_zip_eq_some] at hk
    obtain ⟨k1, k2⟩ := hk
    have hlt : k < p.group.frags.length := (List.getElem?_eq_some_iff.1 k2).1
    rw [List.getElem?_range hlt] at k1
    cases k1
    exact ⟨_, f, k2, rfl⟩
  · rintro ⟨i, f, hf, rfl⟩
    refine ⟨(i, f), ?_, rfl⟩
    rw [List.mem_iff_getElem?]
    refine ⟨i, ?_⟩
    rw [List.getElem?_zip_eq_some]
    exact ⟨List.getElem?_range (List.getElem?_eq_some_iff.1 hf).1, hf⟩

theorem writesOf_apart {p : Placed} {lo hi : Nat} (hg : Good p lo hi) :
    (writesOf p).Pairwise Write.apart := by
  unfold writesOf
  rw [List.pairwise_map, List.pairwise_iff_getElem]
  intro i j hi hj hij
  have hi' : i < p.group.frags.length := by simp at hi; omega
  have hj' : j < p.group.frags.length := by simp at hj; omega
  simp only [List.getElem_zip, List.getElem_range]
  intro _
  rcases hg.apart i j _ _ (by omega) (List.getElem?_eq_getElem hi') (List.getElem?_eq_getElem hj')
    with h | h <;> simp only <;> omega

theorem writes_apart {ps : List Placed} (hg : ∀ p ∈ ps, ∃ lo hi, Good p lo hi)
    (hp : ps.Pairwise (fun p q => p.group.output = q.group.output → p.base + p.size ≤ q.base)) :
    (ps.flatMap writesOf).Pairwise Write.apart := by
  induction hp with
  | nil => exact .nil
  | cons h1 _ ih =>
    rename_i p ps _
    simp only [List.flatMap_cons]
    rw [List.pairwise_append]
    obtain ⟨lo, hi, hgp⟩ := hg p (by simp)
    refine ⟨writesOf_apart hgp, ih (fun q hq => hg q (by simp [hq])), ?_⟩
    intro v hv w hw
    rw [List.mem_flatMap] at hw
    obtain ⟨q, hq, hw⟩ := hw
    obtain ⟨i, f, hf, rfl⟩ := mem_writesOf.1 hv
    obtain ⟨j, g, hg', rfl⟩ := mem_writesOf.1 hw
    intro ho
    have := h1 q hq ho
    have := (hgp.frag i f hf).1
    left
    simp only
    omega

end Nature.Merge
