import Verif.Alloc.Basic
/-
The parts of one variable: what splitting does to them.
-/
namespace Nature.Alloc
open Nature.Ranges (Range Covers Sorted NonEmpty splitRanges)

/-- The intervals `L` are the parts of the variable `V` with the interval `v`; `mv p` says that a
move was inserted at `p`. -/
structure Parts (V : Var) (h : Nat → Iv) (v : Nat) (L : List Nat) (mv : Int → Prop) : Prop where
  ok : ∀ x ∈ L, Sorted (h x).ranges ∧ NonEmpty (h x).ranges ∧ (h x).ranges ≠ []
  ord : L.Pairwise fun x y => hi (h x).ranges ≤ lo (h y).ranges
  cov : ∀ p, Covers V.ranges p ↔ ∃ x ∈ L, Covers (h x).ranges p
  uses : L.flatMap (fun x => (h x).uses) = V.uses
  inside : ∀ x ∈ L, ∀ u ∈ (h x).uses,
    (x = v ∧ u.pos = lo V.ranges) ∨ Covers (h x).ranges (u.pos - 1)
  cls : ∀ x ∈ L, (h x).cls = V.cls
  size : ∀ x ∈ L, (h x).size = V.size
  mov : ∀ p, ∀ x ∈ L, ∀ y ∈ L, x ≠ y → Covers (h x).ranges (p - 1) → Covers (h y).ranges p → mv p

theorem Parts.same {V : Var} {h h' : Nat → Iv} {v : Nat} {L : List Nat} {mv mv' : Int → Prop}
    (P : Parts V h v L mv)
    (e : ∀ x ∈ L, (h' x).ranges = (h x).ranges ∧ (h' x).uses = (h x).uses ∧
      (h' x).cls = (h x).cls ∧ (h' x).size = (h x).size) (hm : ∀ p, mv p → mv' p) :
    Parts V h' v L mv' where
  ok x hx := by rw [(e x hx).1]; exact P.ok x hx
  ord := by
    apply P.ord.imp_of_mem
    intro a b ha hb hab
    rw [(e a ha).1, (e b hb).1]; exact hab
  cov p := by
    rw [P.cov]
    constructor
    · rintro ⟨x, hx, hp⟩; exact ⟨x, hx, by rw [(e x hx).1]; exact hp⟩
    · rintro ⟨x, hx, hp⟩; exact ⟨x, hx, by rw [(e x hx).1] at hp; exact hp⟩
  uses := by
    rw [← P.uses]
    simp only [List.flatMap_def]
    congr 1
    exact List.map_congr_left (fun x hx => (e x hx).2.1)
  inside x hx u hu := by
    rw [(e x hx).2.1] at hu
    rw [(e x hx).1]
    exact P.inside x hx u hu
  cls x hx := by rw [(e x hx).2.2.1]; exact P.cls x hx
  size x hx := by rw [(e x hx).2.2.2]; exact P.size x hx
  mov p x hx y hy n h1 h2 := by
    rw [(e x hx).1] at h1
    rw [(e y hy).1] at h2
    exact hm p (P.mov p x hx y hy n h1 h2)

/-- Splitting one part strictly inside gives the parts again. -/
theorem Parts.split {V : Var} {h h' : Nat → Iv} {v i c : Nat} {A B : List Nat}
    {mv mv' : Int → Prop} {pos : Int} (hV : Sorted V.ranges)
    (P : Parts V h v (A ++ i :: B) mv) (hc : c ∉ A ++ i :: B)
    (h1 : lo (h i).ranges < pos) (h2 : pos < hi (h i).ranges)
    (hi1 : (h' i).ranges = (splitRanges pos (h i).ranges).1)
    (hi2 : (h' i).uses = (splitUses pos (h i).uses).1)
    (hi3 : (h' i).cls = (h i).cls) (hi4 : (h' i).size = (h i).size)
    (hc1 : (h' c).ranges = (splitRanges pos (h i).ranges).2.1)
    (hc2 : (h' c).uses = (splitUses pos (h i).uses).2)
    (hc3 : (h' c).cls = (h i).cls) (hc4 : (h' c).size = (h i).size)
    (e : ∀ x, x ≠ i → x ≠ c → (h' x).ranges = (h x).ranges ∧ (h' x).uses = (h x).uses ∧
      (h' x).cls = (h x).cls ∧ (h' x).size = (h x).size)
    (hm : ∀ p, mv p → mv' p) (hp : (splitRanges pos (h i).ranges).2.2 = true → mv' pos)
    (husort : V.uses.Pairwise fun a b => a.pos ≤ b.pos) :
    Parts V h' v (A ++ i :: c :: B) mv' := by
  have him : i ∈ A ++ i :: B := by simp
  obtain ⟨s1, n1, z1⟩ := P.ok i him
  have H := halves s1 n1 z1 h1 h2
  rw [← hi1, ← hc1] at H
  have ho := P.ord
  rw [List.pairwise_append, List.pairwise_cons] at ho
  obtain ⟨oA, ⟨oi, oB⟩, oAB⟩ := ho
  have iA : ∀ x ∈ A, x ≠ i := by
    rintro x hx rfl
    have := oAB x hx x (List.mem_cons_self ..)
    have := lo_lt_hi s1 n1 z1
    omega
  have iB : ∀ x ∈ B, x ≠ i := by
    rintro x hx rfl
    have := oi x hx
    have := lo_lt_hi s1 n1 z1
    omega
  have cA : ∀ x ∈ A, x ≠ c := by rintro x hx rfl; exact hc (by simp [hx])
  have cB : ∀ x ∈ B, x ≠ c := by rintro x hx rfl; exact hc (by simp [hx])
  have eA := fun x hx => e x (iA x hx) (cA x hx)
  have eB := fun x hx => e x (iB x hx) (cB x hx)
  have mem : ∀ x, x ∈ A ++ i :: c :: B → (x = i ∨ x = c) ∨ ((x ∈ A ∨ x ∈ B) ∧ x ∈ A ++ i :: B ∧
      x ≠ i ∧ x ≠ c) := by
    intro x hx
    simp only [List.mem_append, List.mem_cons] at hx ⊢
    rcases hx with hx | hx | hx | hx
    · exact .inr ⟨.inl hx, .inl hx, iA x hx, cA x hx⟩
    · exact .inl (.inl hx)
    · exact .inl (.inr hx)
    · exact .inr ⟨.inr hx, .inr (.inr hx), iB x hx, cB x hx⟩
  have usort : (h i).uses.Pairwise fun a b => a.pos ≤ b.pos := by
    have := husort
    rw [← P.uses, List.flatMap_append, List.flatMap_cons, List.pairwise_append,
      List.pairwise_append] at this
    exact this.2.1.1
  refine ⟨?_, ?_, ?_, ?_, ?_, ?_, ?_, ?_⟩
  · intro x hx
    rcases mem x hx with (rfl | rfl) | ⟨_, hm, a, b⟩
    · exact ⟨H.sl, H.nl, H.l0⟩
    · exact ⟨H.sr, H.nr, H.r0⟩
    · rw [(e x a b).1]; exact P.ok x hm
  · rw [List.pairwise_append, List.pairwise_cons, List.pairwise_cons]
    have := H.lol; have := H.hil; have := H.lor; have := H.hir
    refine ⟨?_, ⟨?_, ?_, ?_⟩, ?_⟩
    · exact oA.imp_of_mem (fun {a b} ha hb hab => by rw [(eA a ha).1, (eA b hb).1]; exact hab)
    · intro x hx
      rcases List.mem_cons.1 hx with rfl | hx
      · omega
      · have := oi x hx; rw [(eB x hx).1]; omega
    · intro x hx
      have := oi x hx; rw [(eB x hx).1]; omega
    · exact oB.imp_of_mem (fun {a b} ha hb hab => by rw [(eB a ha).1, (eB b hb).1]; exact hab)
    · intro x hx y hy
      have hxi := oAB x hx i (List.mem_cons_self ..)
      rw [(eA x hx).1]
      rcases List.mem_cons.1 hy with rfl | hy
      · omega
      · rcases List.mem_cons.1 hy with rfl | hy
        · have := lo_lt_hi H.sl H.nl H.l0
          omega
        · rw [(eB y hy).1]; exact oAB x hx y (List.mem_cons_of_mem _ hy)
  · intro p
    rw [P.cov]
    constructor
    · rintro ⟨x, hx, hq⟩
      by_cases a : x = i
      · subst a
        by_cases hlt : p < pos
        · exact ⟨x, by simp, (H.cl p).2 ⟨hq, hlt⟩⟩
        · exact ⟨c, by simp, (H.cr p).2 ⟨hq, by omega⟩⟩
      · have b : x ≠ c := by rintro rfl; exact hc hx
        refine ⟨x, ?_, by rw [(e x a b).1]; exact hq⟩
        simp only [List.mem_append, List.mem_cons] at hx ⊢
        rcases hx with hx | hx | hx
        · exact .inl hx
        · exact absurd hx a
        · exact .inr (.inr (.inr hx))
    · rintro ⟨x, hx, hq⟩
      rcases mem x hx with (rfl | rfl) | ⟨_, hm, a, b⟩
      · exact ⟨x, him, ((H.cl p).1 hq).1⟩
      · exact ⟨i, him, ((H.cr p).1 hq).1⟩
      · exact ⟨x, hm, by rw [(e x a b).1] at hq; exact hq⟩
  · rw [← P.uses]
    simp only [List.flatMap_append, List.flatMap_cons]
    rw [hi2, hc2, ← List.append_assoc (splitUses pos (h i).uses).1, splitUses_append]
    congr 1
    · simp only [List.flatMap_def]; congr 1
      exact List.map_congr_left (fun x hx => (eA x hx).2.1)
    · congr 1
      simp only [List.flatMap_def]; congr 1
      exact List.map_congr_left (fun x hx => (eB x hx).2.1)
  · intro x hx u hu
    rcases mem x hx with (rfl | rfl) | ⟨_, hm, a, b⟩
    · rw [hi2] at hu
      have hle := splitUses_left u hu
      have hmem : u ∈ (h x).uses := by
        rw [← splitUses_append pos (h x).uses]; exact List.mem_append_left _ hu
      rcases P.inside x him u hmem with q | q
      · exact .inl q
      · exact .inr ((H.cl _).2 ⟨q, by omega⟩)
    · rw [hc2] at hu
      have hlt := splitUses_right usort u hu
      have hmem : u ∈ (h i).uses := by
        rw [← splitUses_append pos (h i).uses]; exact List.mem_append_right _ hu
      rcases P.inside i him u hmem with q | q
      · have := lo_le hV ((P.cov _).2 ⟨i, him, cov_lo n1 z1⟩)
        omega
      · exact .inr ((H.cr _).2 ⟨q, by omega⟩)
    · rw [(e x a b).2.1] at hu
      rw [(e x a b).1]
      exact P.inside x hm u hu
  · intro x hx
    rcases mem x hx with (rfl | rfl) | ⟨_, hm, a, b⟩
    · rw [hi3]; exact P.cls x him
    · rw [hc3]; exact P.cls i him
    · rw [(e x a b).2.2.1]; exact P.cls x hm
  · intro x hx
    rcases mem x hx with (rfl | rfl) | ⟨_, hm, a, b⟩
    · rw [hi4]; exact P.size x him
    · rw [hc4]; exact P.size i him
    · rw [(e x a b).2.2.2]; exact P.size x hm
  · intro p x hx y hy hxy c1 c2
    rcases mem x hx with (rfl | rfl) | ⟨_, hmx, a, b⟩
    · obtain ⟨g1, g2⟩ := (H.cl _).1 c1
      rcases mem y hy with (rfl | rfl) | ⟨_, hmy, a', b'⟩
      · exact absurd rfl hxy
      · obtain ⟨g3, g4⟩ := (H.cr _).1 c2
        have : p = pos := by omega
        subst this
        exact hp (H.cm.2 g3)
      · rw [(e y a' b').1] at c2
        exact hm p (P.mov p x him y hmy hxy g1 c2)
    · obtain ⟨g1, g2⟩ := (H.cr _).1 c1
      rcases mem y hy with (rfl | rfl) | ⟨_, hmy, a', b'⟩
      · obtain ⟨g3, g4⟩ := (H.cl _).1 c2; omega
      · exact absurd rfl hxy
      · rw [(e y a' b').1] at c2
        exact hm p (P.mov p i him y hmy (Ne.symm a') g1 c2)
    · rw [(e x a b).1] at c1
      rcases mem y hy with (rfl | rfl) | ⟨_, hmy, a', b'⟩
      · obtain ⟨g3, g4⟩ := (H.cl _).1 c2
        exact hm p (P.mov p x hmx y him hxy c1 g3)
      · obtain ⟨g3, g4⟩ := (H.cr _).1 c2
        exact hm p (P.mov p x hmx i him a c1 g3)
      · rw [(e y a' b').1] at c2
        exact hm p (P.mov p x hmx y hmy hxy c1 c2)

/-- Where `c` goes in the list of parts. -/
theorem insertAfter_eq {h : Nat → Iv} {i c : Nat} {L : List Nat} (hi : i ∈ L)
    (inj : ∀ x ∈ L, (h x).index = (h i).index → x = i) :
    ∃ A B, L = A ++ i :: B ∧ insertAfter h (h i).index c L = A ++ i :: c :: B := by
  induction L with
  | nil => cases hi
  | cons x xs ih =>
    rw [insertAfter]
    by_cases e : (h x).index = (h i).index
    · have := inj x (List.mem_cons_self ..) e
      subst this
      exact ⟨[], xs, rfl, by simp⟩
    · have hx : i ∈ xs := by
        rcases List.mem_cons.1 hi with rfl | hx
        · exact absurd rfl e
        · exact hx
      obtain ⟨A, B, h1, h2⟩ := ih hx (fun y hy => inj y (List.mem_cons_of_mem _ hy))
      exact ⟨x :: A, B, by rw [h1]; rfl, by rw [if_neg e, h2]; rfl⟩

end Nature.Alloc
