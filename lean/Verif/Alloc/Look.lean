import Verif.Alloc.Walk
/-
Looking up the part of a variable at a position.
-/
namespace Nature.Alloc
open Nature.Ranges (Range Covers Sorted NonEmpty CoversInput C38_covered)

theorem Parts.unique {V : Var} {h : Nat → Iv} {v : Nat} {L : List Nat} {mv : Int → Prop}
    (P : Parts V h v L mv) {x y : Nat} (hx : x ∈ L) (hy : y ∈ L) {p : Int}
    (h1 : Covers (h x).ranges p) (h2 : Covers (h y).ranges p) : x = y := by
  have key : ∀ (M : List Nat), (∀ z ∈ M, z ∈ L) →
      M.Pairwise (fun x y => hi (h x).ranges ≤ lo (h y).ranges) → x ∈ M → y ∈ M → x = y := by
    intro M
    induction M with
    | nil => intro _ _ hx; cases hx
    | cons a M ih =>
      intro hs hp hx hy
      rw [List.pairwise_cons] at hp
      have ax := lt_hi (P.ok x (hs x hx)).1 h1
      have ay := lo_le (P.ok y (hs y hy)).1 h2
      have bx := lo_le (P.ok x (hs x hx)).1 h1
      have by' := lt_hi (P.ok y (hs y hy)).1 h2
      rcases List.mem_cons.1 hx with e | hx
      · rcases List.mem_cons.1 hy with e' | hy
        · rw [e, e']
        · have := hp.1 y hy
          rw [← e] at this
          omega
      · rcases List.mem_cons.1 hy with e' | hy
        · have := hp.1 x hx
          rw [← e'] at this
          omega
        · exact ih (fun z hz => hs z (List.mem_cons_of_mem _ hz)) hp.2 hx hy
  exact key L (fun z hz => hz) P.ord hx hy

theorem findCovered_out {h : Nat → Iv} {p : Int} {L : List Nat}
    (ok : ∀ x ∈ L, Sorted (h x).ranges) (hex : ∃ x ∈ L, Covers (h x).ranges p) :
    ∃ x ∈ L, findCovered h p false L = some x ∧ Covers (h x).ranges p := by
  induction L with
  | nil => obtain ⟨_, hx, _⟩ := hex; cases hx
  | cons a L ih =>
    rw [findCovered]
    by_cases hc : Ranges.covered (h a).ranges p false = true
    · rw [if_pos hc]
      exact ⟨a, List.mem_cons_self .., rfl, ((C38_covered (ok a (List.mem_cons_self ..)) p).1).1 hc⟩
    · rw [if_neg hc]
      obtain ⟨x, hx, h1, h2⟩ := ih (fun x hx => ok x (List.mem_cons_of_mem _ hx)) (by
        obtain ⟨x, hx, hp⟩ := hex
        rcases List.mem_cons.1 hx with rfl | hx
        · exact absurd (((C38_covered (ok x (List.mem_cons_self ..)) p).1).2 hp) hc
        · exact ⟨x, hx, hp⟩)
      exact ⟨x, List.mem_cons_of_mem _ hx, h1, h2⟩

theorem findCovered_in {h : Nat → Iv} {p : Int} {L : List Nat}
    (ok : ∀ x ∈ L, Sorted (h x).ranges)
    (ord : L.Pairwise fun x y => hi (h x).ranges ≤ lo (h y).ranges)
    (hex : ∃ x ∈ L, Covers (h x).ranges (p - 1)) :
    ∃ x ∈ L, findCovered h p true L = some x ∧ Covers (h x).ranges (p - 1) := by
  induction L with
  | nil => obtain ⟨_, hx, _⟩ := hex; cases hx
  | cons a L ih =>
    rw [findCovered]
    rw [List.pairwise_cons] at ord
    have sa := ok a (List.mem_cons_self ..)
    obtain ⟨x, hx, hp⟩ := hex
    by_cases hc : Ranges.covered (h a).ranges p true = true
    · rw [if_pos hc]
      refine ⟨a, List.mem_cons_self .., rfl, ?_⟩
      rcases List.mem_cons.1 hx with rfl | hx
      · exact hp
      · exfalso
        obtain ⟨r, hr, h1, h2⟩ := ((C38_covered sa p).2).1 hc
        have a1 := ord.1 x hx
        have a2 := lo_le (ok x (List.mem_cons_of_mem _ hx)) hp
        have a3 : r.hi ≤ hi (h a).ranges := by
          cases hrs : (h a).ranges with
          | nil => rw [hrs] at hr; cases hr
          | cons y ys =>
            rw [hrs] at hr sa
            exact (Ranges.last_ge sa r hr)
        omega
    · rw [if_neg hc]
      rcases List.mem_cons.1 hx with rfl | hx
      · exfalso
        obtain ⟨r, hr, h1, h2⟩ := hp
        exact hc (((C38_covered sa p).2).2 ⟨r, hr, by omega, by omega⟩)
      · obtain ⟨z, hz, e1, e2⟩ := ih (fun x hx => ok x (List.mem_cons_of_mem _ hx)) ord.2 ⟨x, hx, hp⟩
        exact ⟨z, List.mem_cons_of_mem _ hz, e1, e2⟩

/-- `childAt` is the search through all parts. -/
theorem childAt_out {F : Func} {s : St} (g : Geo F s) {k : Nat} {V : Var} (hk : F.vars[k]? = some V)
    {p : Int} (hp : Covers V.ranges p) :
    ∃ x, childAt s (F.cfg.nregs + k) p false = some x ∧
      x ∈ (F.cfg.nregs + k) :: (s.heap (F.cfg.nregs + k)).children ∧ Covers (s.heap x).ranges p := by
  have P := (g.root k V hk).2.2.2
  obtain ⟨x, hx, e, hc⟩ := findCovered_out (fun x hx => (P.ok x hx).1) ((P.cov p).1 hp)
  refine ⟨x, ?_, hx, hc⟩
  rw [childAt]
  rw [findCovered] at e
  split
  · rename_i hn
    rw [hn, List.mem_singleton] at hx
    rw [hx]
  · exact e

theorem childAt_in {F : Func} {s : St} (g : Geo F s) {k : Nat} {V : Var} (hk : F.vars[k]? = some V)
    {p : Int} (hp : Covers V.ranges (p - 1)) :
    ∃ x, childAt s (F.cfg.nregs + k) p true = some x ∧
      x ∈ (F.cfg.nregs + k) :: (s.heap (F.cfg.nregs + k)).children ∧
      Covers (s.heap x).ranges (p - 1) := by
  have P := (g.root k V hk).2.2.2
  obtain ⟨x, hx, e, hc⟩ := findCovered_in (p := p) (fun x hx => (P.ok x hx).1) P.ord
    ((P.cov (p - 1)).1 hp)
  refine ⟨x, ?_, hx, hc⟩
  rw [childAt]
  rw [findCovered] at e
  split
  · rename_i hn
    rw [hn, List.mem_singleton] at hx
    rw [hx]
  · exact e

/-- A part of variable `k`: its number, its root, and that it is not preset if `k` is not. -/
theorem part_facts {F : Func} {s : St} (g : Geo F s) {k : Nat} {V : Var} (hk : F.vars[k]? = some V)
    {x : Nat} (hx : x ∈ (F.cfg.nregs + k) :: (s.heap (F.cfg.nregs + k)).children) :
    F.cfg.nregs ≤ x ∧ x < s.next ∧ rootOf s x = F.cfg.nregs + k ∧ (V.preset = 0 → ¬ Pre F x) ∧
      (s.heap x).cls = V.cls ∧ (s.heap x).size = V.size := by
  obtain ⟨a1, a2, a3, a4⟩ := g.root k V hk
  have hl := (List.getElem?_eq_some_iff.1 hk).1
  have := g.nle
  refine ⟨?_, ?_, ?_, ?_, a4.cls x hx, a4.size x hx⟩
  · rcases List.mem_cons.1 hx with rfl | hx
    · omega
    · have := a3 x hx; omega
  · rcases List.mem_cons.1 hx with rfl | hx
    · omega
    · exact (a3 x hx).2.1
  · rcases List.mem_cons.1 hx with rfl | hx
    · rw [rootOf, a1]; rfl
    · rw [rootOf, (a3 x hx).2.2]; rfl
  · rintro hp ⟨k', V', rfl, hk', hp'⟩
    rcases List.mem_cons.1 hx with e | hx
    · have : k' = k := by omega
      subst this
      rw [hk] at hk'
      cases hk'
      exact hp' hp
    · have := (a3 _ hx).1
      have := (List.getElem?_eq_some_iff.1 hk').1
      omega

/-! ### neighbouring blocks of a given list -/

theorem next_nil {q b : Blk} : ¬ Next [] q b := by
  rintro ⟨pre, post, h⟩
  cases pre <;> simp at h

theorem next_one {a q b : Blk} : ¬ Next [a] q b := by
  rintro ⟨pre, post, h⟩
  cases pre with
  | nil => simp at h
  | cons x xs =>
    rw [List.cons_append] at h
    injection h with _ h
    cases xs <;> simp at h

theorem next_cons {a c q b : Blk} {l : List Blk} :
    Next (a :: c :: l) q b ↔ (q = a ∧ b = c) ∨ Next (c :: l) q b := by
  constructor
  · rintro ⟨pre, post, h⟩
    cases pre with
    | nil => simp at h; exact .inl ⟨h.1.symm, h.2.1.symm⟩
    | cons x xs => rw [List.cons_append] at h; injection h with _ h; exact .inr ⟨xs, post, h⟩
  · rintro (⟨rfl, rfl⟩ | h)
    · exact ⟨[], l, rfl⟩
    · exact next_tail h

end Nature.Alloc
