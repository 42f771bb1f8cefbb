import Verif.Alloc.Parts
/-
The intervals as a whole: every interval is a part of one variable, and splitting keeps it so.
-/
namespace Nature.Alloc
open Nature.Ranges (Range Covers Sorted NonEmpty splitRanges)

/-- The interval of the whole variable. -/
def rootOf (s : St) (x : Nat) : Nat := (s.heap x).parent.getD x

/-- A move was inserted at `p` between parts of the variable with interval `r`. -/
def Moved (s : St) (r : Nat) (p : Int) : Prop :=
  ∃ m ∈ s.moves, m.pos = p ∧ rootOf s m.src = r ∧ rootOf s m.dst = r

structure Geo (F : Func) (s : St) : Prop where
  nle : F.cfg.nregs + F.vars.length ≤ s.next
  low : ∀ j, j < F.cfg.nregs ∨ s.next ≤ j → s.heap j = heap0 F j
  free : ∀ j, F.cfg.nregs ≤ j → j < s.next → (s.heap j).fixed = false
  idx : ∀ i j, F.cfg.nregs ≤ i → i < s.next → F.cfg.nregs ≤ j → j < s.next →
    (s.heap i).index = (s.heap j).index → i = j
  cnt : ∀ i, F.cfg.nregs ≤ i → i < s.next → (s.heap i).index < s.count
  root : ∀ k V, F.vars[k]? = some V →
    (s.heap (F.cfg.nregs + k)).parent = none ∧
    (s.heap (F.cfg.nregs + k)).constFloat = V.constFloat ∧
    (∀ x ∈ (s.heap (F.cfg.nregs + k)).children, F.cfg.nregs + F.vars.length ≤ x ∧ x < s.next ∧
      (s.heap x).parent = some (F.cfg.nregs + k)) ∧
    Parts V s.heap (F.cfg.nregs + k)
      ((F.cfg.nregs + k) :: (s.heap (F.cfg.nregs + k)).children) (Moved s (F.cfg.nregs + k))
  kid : ∀ i, F.cfg.nregs + F.vars.length ≤ i → i < s.next → ∃ k, k < F.vars.length ∧
    (s.heap i).parent = some (F.cfg.nregs + k) ∧ i ∈ (s.heap (F.cfg.nregs + k)).children ∧
    (s.heap i).constFloat = false
  mvs : ∀ m ∈ s.moves, (F.cfg.nregs ≤ m.src ∧ m.src < s.next) ∧
    (F.cfg.nregs ≤ m.dst ∧ m.dst < s.next) ∧ rootOf s m.src = rootOf s m.dst ∧
    ∃ k V, F.vars[k]? = some V ∧ rootOf s m.src = F.cfg.nregs + k ∧ Covers V.ranges m.pos

/-- Every interval of a variable belongs to one. -/
theorem Geo.own {F : Func} {s : St} (g : Geo F s) {i : Nat} (h1 : F.cfg.nregs ≤ i)
    (h2 : i < s.next) : ∃ k V, F.vars[k]? = some V ∧ rootOf s i = F.cfg.nregs + k ∧
      i ∈ (F.cfg.nregs + k) :: (s.heap (F.cfg.nregs + k)).children := by
  by_cases h : i < F.cfg.nregs + F.vars.length
  · have hk : i - F.cfg.nregs < F.vars.length := by omega
    have e : F.cfg.nregs + (i - F.cfg.nregs) = i := by omega
    have hg := g.root (i - F.cfg.nregs) _ (List.getElem?_eq_getElem hk)
    rw [e] at hg
    refine ⟨i - F.cfg.nregs, _, List.getElem?_eq_getElem hk, ?_, ?_⟩
    · rw [rootOf, hg.1, e]; rfl
    · rw [e]; exact List.mem_cons_self ..
  · obtain ⟨k, hk, e1, e2, _⟩ := g.kid i (by omega) h2
    exact ⟨k, _, List.getElem?_eq_getElem hk, by rw [rootOf, e1]; rfl, List.mem_cons_of_mem _ e2⟩

theorem Geo.ids {F : Func} {s : St} (g : Geo F s) {i : Nat} (h : (s.heap i).fixed = false) :
    F.cfg.nregs ≤ i ∧ i < s.next := by
  by_cases h1 : i < F.cfg.nregs ∨ s.next ≤ i
  · rw [g.low i h1, heap0] at h
    have := g.nle
    rcases h1 with h1 | h1
    · rw [if_pos h1] at h; cases h
    · rw [if_neg (by omega), List.getElem?_eq_none (by omega)] at h; cases h
  · omega

theorem Geo.part {F : Func} {s : St} (g : Geo F s) {i : Nat} (h1 : F.cfg.nregs ≤ i)
    (h2 : i < s.next) : Sorted (s.heap i).ranges ∧ NonEmpty (s.heap i).ranges ∧
      (s.heap i).ranges ≠ [] := by
  obtain ⟨k, V, e, _, hm⟩ := g.own h1 h2
  exact (g.root k V e).2.2.2.ok i hm

theorem Geo.usesSorted {F : Func} (hF : F.Ok) {s : St} (g : Geo F s) {i : Nat}
    (h1 : F.cfg.nregs ≤ i) (h2 : i < s.next) :
    (s.heap i).uses.Pairwise fun a b => a.pos ≤ b.pos := by
  obtain ⟨k, V, e, _, hm⟩ := g.own h1 h2
  have P := (g.root k V e).2.2.2
  have hV := (hF.vars V (List.mem_of_getElem? e)).order
  rw [← P.uses] at hV
  have key : ∀ (L : List Nat), (L.flatMap fun x => (s.heap x).uses).Pairwise
      (fun a b => a.pos ≤ b.pos) → ∀ i ∈ L, (s.heap i).uses.Pairwise fun a b => a.pos ≤ b.pos := by
    intro L
    induction L with
    | nil => intro _ i hi; cases hi
    | cons x L ih =>
      intro h i hi
      rw [List.flatMap_cons, List.pairwise_append] at h
      rcases List.mem_cons.1 hi with rfl | hi
      · exact h.1
      · exact ih h.2.1 i hi
  exact key _ hV i hm

/-- A use of a part is a use of the variable. -/
theorem Geo.use {F : Func} {s : St} (g : Geo F s) {i : Nat} (h1 : F.cfg.nregs ≤ i)
    (h2 : i < s.next) {u : Use} (hu : u ∈ (s.heap i).uses) : ∃ V ∈ F.vars, u ∈ V.uses ∧
      ∀ p, Covers (s.heap i).ranges p → Covers V.ranges p := by
  obtain ⟨k, V, e, _, hm⟩ := g.own h1 h2
  have P := (g.root k V e).2.2.2
  refine ⟨V, List.mem_of_getElem? e, ?_, fun p hp => (P.cov p).2 ⟨i, hm, hp⟩⟩
  rw [← P.uses]
  exact List.mem_flatMap.2 ⟨i, hm, hu⟩

/-- The position of an interval is after the entry label. -/
theorem Geo.pos {F : Func} (hF : F.Ok) {s : St} (g : Geo F s) {i : Nat} (h1 : F.cfg.nregs ≤ i)
    (h2 : i < s.next) : 0 < lo (s.heap i).ranges ∧
      ∀ b, F.cfg.blocks.head? = some b → b.label < lo (s.heap i).ranges := by
  obtain ⟨k, V, e, _, hm⟩ := g.own h1 h2
  have P := (g.root k V e).2.2.2
  obtain ⟨_, n, z⟩ := P.ok i hm
  have hV := hF.vars V (List.mem_of_getElem? e)
  obtain ⟨r, hr, hlo, _⟩ := (P.cov _).2 ⟨i, hm, cov_lo n z⟩
  refine ⟨?_, ?_⟩
  · have := hV.pos r hr; omega
  · intro b hb
    have := hV.entry b hb r hr
    omega

/-- Changes that leave the shape alone. -/
theorem Geo.same {F : Func} {s s' : St} (g : Geo F s) (h1 : s'.next = s.next)
    (h2 : s'.count = s.count) (h3 : s'.moves = s.moves)
    (h4 : ∀ j, j < F.cfg.nregs ∨ s.next ≤ j → s'.heap j = s.heap j)
    (h5 : ∀ j, (s'.heap j).ranges = (s.heap j).ranges ∧ (s'.heap j).uses = (s.heap j).uses ∧
      (s'.heap j).parent = (s.heap j).parent ∧ (s'.heap j).children = (s.heap j).children ∧
      (s'.heap j).index = (s.heap j).index ∧ (s'.heap j).size = (s.heap j).size ∧
      (s'.heap j).cls = (s.heap j).cls ∧ (s'.heap j).fixed = (s.heap j).fixed ∧
      (s'.heap j).constFloat = (s.heap j).constFloat) : Geo F s' := by
  have hr : ∀ j, rootOf s' j = rootOf s j := by intro j; rw [rootOf, rootOf, (h5 j).2.2.1]
  refine ⟨?_, ?_, ?_, ?_, ?_, ?_, ?_, ?_⟩
  · rw [h1]; exact g.nle
  · intro j hj; rw [h1] at hj; rw [h4 j hj]; exact g.low j hj
  · intro j; rw [h1, (h5 j).2.2.2.2.2.2.2.1]; exact g.free j
  · intro i j; rw [h1, (h5 i).2.2.2.2.1, (h5 j).2.2.2.2.1]; exact g.idx i j
  · intro i; rw [h1, h2, (h5 i).2.2.2.2.1]; exact g.cnt i
  · intro k V e
    obtain ⟨a1, a2, a3, a4⟩ := g.root k V e
    have hh := h5 (F.cfg.nregs + k)
    refine ⟨?_, ?_, ?_, ?_⟩
    · rw [hh.2.2.1]; exact a1
    · rw [hh.2.2.2.2.2.2.2.2]; exact a2
    · rw [hh.2.2.2.1, h1]
      intro x hx
      rw [(h5 x).2.2.1]
      exact a3 x hx
    · rw [hh.2.2.2.1]
      apply a4.same
      · intro x _
        exact ⟨(h5 x).1, (h5 x).2.1, (h5 x).2.2.2.2.2.2.1, (h5 x).2.2.2.2.2.1⟩
      · intro p ⟨m, hm, b1, b2, b3⟩
        exact ⟨m, by rw [h3]; exact hm, b1, by rw [hr]; exact b2, by rw [hr]; exact b3⟩
  · intro i; rw [h1]
    intro b1 b2
    obtain ⟨k, c1, c2, c3, c4⟩ := g.kid i b1 b2
    exact ⟨k, c1, by rw [(h5 i).2.2.1]; exact c2, by rw [(h5 _).2.2.2.1]; exact c3,
      by rw [(h5 i).2.2.2.2.2.2.2.2]; exact c4⟩
  · intro m hm; rw [h3] at hm
    rw [h1, hr, hr]
    exact g.mvs m hm

/-- What `splitAt` returns. -/
theorem splitAt_spec {bs : List Blk} {s s' : St} {i c : Nat} {pos : Int}
    (h : splitAt bs s i pos = some (s', c)) (hin : i < s.next) (hr : rootOf s i < s.next) :
    c = s.next ∧ lo (s.heap i).ranges < pos ∧ pos < hi (s.heap i).ranges ∧
    (s.heap i).fixed = false ∧ s'.next = s.next + 1 ∧ s'.count = s.count + 1 ∧
    s'.unhandled = s.unhandled ∧ s'.active = s.active ∧ s'.inactive = s.inactive ∧
    s'.slots = s.slots ∧ s'.stackOffset = s.stackOffset ∧
    s'.moves = (if (splitRanges pos (s.heap i).ranges).2.2 then s.moves ++ [⟨pos, i, c⟩] else s.moves) ∧
    s'.heap c = newChild s i (splitRanges pos (s.heap i).ranges).2.1 (splitUses pos (s.heap i).uses).2 ∧
    ∀ j, j ≠ c → s'.heap j = { s.heap j with
      ranges := if j = i then (splitRanges pos (s.heap i).ranges).1 else (s.heap j).ranges,
      uses := if j = i then (splitUses pos (s.heap i).uses).1 else (s.heap j).uses,
      children := if j = rootOf s i then newChildren s i c else (s.heap j).children } := by
  rw [splitAt] at h
  split at h
  · cases h
  · split at h
    · cases h
    · split at h
      · cases h
      · rename_i h1 h2 h3
        simp only at h
        split at h
        · cases h
        · rename_i h4
          simp only [Option.some.injEq, Prod.mk.injEq] at h
          obtain ⟨rfl, rfl⟩ := h
          rw [til_eq] at h1
          rw [frm_eq] at h2
          refine ⟨rfl, by omega, by omega, by simpa using h3, rfl, rfl, rfl, rfl, rfl, rfl, rfl, rfl, ?_, ?_⟩
          · simp only [St.set]
            rw [rootOf] at hr
            rw [if_neg (by omega), if_neg (by omega)]; simp
          · intro j hj
            simp only [St.set]
            rw [rootOf] at hr
            by_cases e1 : j = (s.heap i).parent.getD i
            · subst e1
              rw [if_pos rfl]
              by_cases e2 : (s.heap i).parent.getD i = i
              · rw [if_pos e2, if_pos e2, if_pos e2, if_neg (by omega)]
                simp [rootOf, e2]
              · rw [if_neg e2, if_neg e2, if_neg e2, if_neg (by omega)]
                simp [rootOf]
            · rw [if_neg e1]
              by_cases e2 : j = i
              · subst e2
                rw [if_pos rfl, if_pos rfl, if_pos rfl, if_neg (by omega)]
                simp [rootOf, e1]
              · rw [if_neg e2, if_neg e2, if_neg e2, if_neg hj]
                simp [rootOf, e1]

theorem Geo.root_lt {F : Func} {s : St} (g : Geo F s) {i : Nat} (h1 : F.cfg.nregs ≤ i)
    (h2 : i < s.next) : rootOf s i < F.cfg.nregs + F.vars.length := by
  obtain ⟨k, V, e, e2, _⟩ := g.own h1 h2
  have := (List.getElem?_eq_some_iff.1 e).1
  omega

/-- Where the new part goes. -/
theorem newChildren_eq {F : Func} {s : St} (g : Geo F s) {i k : Nat} {V : Var}
    (h1 : F.cfg.nregs ≤ i) (h2 : i < s.next) (hk : F.vars[k]? = some V)
    (hr : rootOf s i = F.cfg.nregs + k)
    (hm : i ∈ (F.cfg.nregs + k) :: (s.heap (F.cfg.nregs + k)).children) (c : Nat) :
    ∃ A B, (F.cfg.nregs + k) :: (s.heap (F.cfg.nregs + k)).children = A ++ i :: B ∧
      (F.cfg.nregs + k) :: newChildren s i c = A ++ i :: c :: B := by
  obtain ⟨a1, _, a3, _⟩ := g.root k V hk
  rw [newChildren]
  split
  · rename_i r hp
    have : r = F.cfg.nregs + k := by rw [rootOf, hp] at hr; exact hr
    subst this
    have hi : i ≠ F.cfg.nregs + k := by rintro rfl; rw [a1] at hp; cases hp
    have hmem : i ∈ (s.heap (F.cfg.nregs + k)).children := by
      rcases List.mem_cons.1 hm with e | e
      · exact absurd e hi
      · exact e
    have inj : ∀ x ∈ (s.heap (F.cfg.nregs + k)).children,
        (s.heap x).index = (s.heap i).index → x = i := by
      intro x hx e
      have := a3 x hx
      exact g.idx x i (by omega) this.2.1 h1 h2 e
    obtain ⟨A, B, e1, e2⟩ := insertAfter_eq (c := c) hmem inj
    refine ⟨(F.cfg.nregs + k) :: A, B, by rw [e1]; rfl, ?_⟩
    split
    · rename_i hn; rw [hn] at hmem; cases hmem
    · rename_i x xs hn
      rw [← hn, e2]; rfl
  · rename_i hp
    have : i = F.cfg.nregs + k := by rw [rootOf, hp] at hr; exact hr
    subst this
    exact ⟨[], _, rfl, rfl⟩

theorem splitAt_geo {F : Func} (hF : F.Ok) {bs : List Blk} {s s' : St} {i c : Nat} {pos : Int}
    (g : Geo F s) (h1 : F.cfg.nregs ≤ i) (h2 : i < s.next)
    (h : splitAt bs s i pos = some (s', c)) : Geo F s' := by
  have hrt := g.root_lt h1 h2
  have hnle := g.nle
  obtain ⟨rfl, hlo, hhi, _, hn, hcnt, _, _, _, _, _, hmv, hc, hj⟩ :=
    splitAt_spec h h2 (by omega)
  obtain ⟨k, V, hk, hr, hm⟩ := g.own h1 h2
  obtain ⟨A, B, hA, hB⟩ := newChildren_eq g h1 h2 hk hr hm s.next
  have hVok := hF.vars V (List.mem_of_getElem? hk)
  have hkl := (List.getElem?_eq_some_iff.1 hk).1
  have par : ∀ j, j ≠ s.next → (s'.heap j).parent = (s.heap j).parent := by
    intro j e; rw [hj j e]
  have rt : ∀ j, j ≠ s.next → rootOf s' j = rootOf s j := by
    intro j e; rw [rootOf, rootOf, par j e]
  have rtc : rootOf s' s.next = rootOf s i := by rw [rootOf, hc]; rfl
  have hcls : (s.heap (rootOf s i)).cls = (s.heap i).cls := by
    have P := (g.root k V hk).2.2.2
    rw [hr, P.cls _ (List.mem_cons_self ..), P.cls i hm]
  have mvmono : ∀ r p, Moved s r p → Moved s' r p := by
    rintro r p ⟨m, hm1, e1, e2, e3⟩
    obtain ⟨b1, b2, _⟩ := g.mvs m hm1
    refine ⟨m, ?_, e1, ?_, ?_⟩
    · rw [hmv]; split
      · exact List.mem_append_left _ hm1
      · exact hm1
    · rw [rt _ (by omega)]; exact e2
    · rw [rt _ (by omega)]; exact e3
  have kidsOf : ∀ k', F.cfg.nregs + k' ≠ s.next → F.cfg.nregs + k' ≠ F.cfg.nregs + k →
      (s'.heap (F.cfg.nregs + k')).children = (s.heap (F.cfg.nregs + k')).children := by
    intro k' e1 e2
    rw [hj _ e1]
    simp only
    rw [if_neg (by rw [hr]; exact e2)]
  have kidsSelf : (s'.heap (F.cfg.nregs + k)).children = newChildren s i s.next := by
    rw [hj _ (by omega)]
    simp only
    rw [if_pos hr.symm]
  refine ⟨?_, ?_, ?_, ?_, ?_, ?_, ?_, ?_⟩
  · omega
  · intro j hjj
    have e0 : j ≠ s.next := by omega
    have e1 : j ≠ i := by omega
    have e2 : j ≠ rootOf s i := by omega
    rw [hj j e0, if_neg e1, if_neg e1, if_neg e2]
    exact g.low j (by omega)
  · intro j a b
    by_cases e : j = s.next
    · rw [e, hc]; rfl
    · rw [hj j e]; exact g.free j a (by omega)
  · intro x y a1 a2 b1 b2 e
    by_cases ex : x = s.next
    · by_cases ey : y = s.next
      · omega
      · rw [ex, hc, hj y ey] at e
        have := g.cnt y b1 (by omega)
        simp only [newChild] at e
        omega
    · by_cases ey : y = s.next
      · rw [ey, hc, hj x ex] at e
        have := g.cnt x a1 (by omega)
        simp only [newChild] at e
        omega
      · rw [hj x ex, hj y ey] at e
        exact g.idx x y a1 (by omega) b1 (by omega) e
  · intro x a b
    rw [hcnt]
    by_cases ex : x = s.next
    · rw [ex, hc]; simp [newChild]
    · rw [hj x ex]; have := g.cnt x a (by omega); simp only; omega
  · intro k' V' hk'
    have hk'l := (List.getElem?_eq_some_iff.1 hk').1
    have ne : F.cfg.nregs + k' ≠ s.next := by omega
    obtain ⟨a1, a2, a3, a4⟩ := g.root k' V' hk'
    refine ⟨by rw [par _ ne]; exact a1, by rw [hj _ ne]; exact a2, ?_, ?_⟩
    · intro x hx
      by_cases ek : k' = k
      · subst ek
        rw [kidsSelf] at hx
        have hx' : x ∈ (F.cfg.nregs + k') :: newChildren s i s.next := List.mem_cons_of_mem _ hx
        rw [hB] at hx'
        by_cases exc : x = s.next
        · subst exc
          refine ⟨by omega, by omega, ?_⟩
          rw [hc]
          simp only [newChild]
          rw [← hr]; rfl
        · have hx2 : x ∈ (F.cfg.nregs + k') :: (s.heap (F.cfg.nregs + k')).children := by
            rw [hA]
            simp only [List.mem_append, List.mem_cons] at hx' ⊢
            rcases hx' with q | q | q | q
            · exact .inl q
            · exact .inr (.inl q)
            · exact absurd q exc
            · exact .inr (.inr q)
          rcases List.mem_cons.1 hx2 with q | q
          · exfalso
            -- the root is not among the new children
            subst q
            rw [newChildren] at hx
            split at hx
            · rename_i r hp
              split at hx
              · rcases List.mem_cons.1 hx with q | q
                · exact exc q
                · cases q
              · rename_i y ys hys
                have hrr : r = F.cfg.nregs + k' := by rw [rootOf, hp] at hr; exact hr
                subst hrr
                have hmem : i ∈ (s.heap (F.cfg.nregs + k')).children := by
                  rcases List.mem_cons.1 hm with e | e
                  · subst e; rw [a1] at hp; cases hp
                  · exact e
                obtain ⟨A', B', e1, e2⟩ := insertAfter_eq (h := s.heap) (c := s.next) hmem
                  (fun z hz ez => g.idx z i (by have := (a3 z hz); omega) (a3 z hz).2.1 h1 h2 ez)
                rw [← hys, e2] at hx
                have : F.cfg.nregs + k' ∈ (s.heap (F.cfg.nregs + k')).children := by
                  rw [e1]
                  simp only [List.mem_append, List.mem_cons] at hx ⊢
                  rcases hx with q | q | q | q
                  · exact .inl q
                  · exact .inr (.inl q)
                  · exact absurd q exc
                  · exact .inr (.inr q)
                have := (a3 _ this).1
                omega
            · rename_i hp
              have hii : i = F.cfg.nregs + k' := by rw [rootOf, hp] at hr; exact hr
              rcases List.mem_cons.1 hx with q | q
              · exact exc q
              · have := (a3 _ (by rw [hii] at q; exact q)).1
                omega
          · obtain ⟨c1, c2, c3⟩ := a3 x q
            exact ⟨c1, by omega, by rw [par x exc]; exact c3⟩
      · rw [kidsOf k' ne (by omega)] at hx
        obtain ⟨c1, c2, c3⟩ := a3 x hx
        exact ⟨c1, by omega, by rw [par x (by omega)]; exact c3⟩
    · by_cases ek : k' = k
      · subst ek
        rw [hk] at hk'
        cases hk'
        rw [kidsSelf, hB]
        rw [hA] at a4
        have hci : s.next ∉ A ++ i :: B := by
          rw [← hA]
          intro q
          rcases List.mem_cons.1 q with q | q
          · omega
          · have := (a3 _ q).2.1; omega
        refine Parts.split (mv' := Moved s' (F.cfg.nregs + k')) hVok.sorted a4 hci hlo hhi ?_ ?_ ?_ ?_ ?_ ?_ ?_ ?_ ?_
          (mvmono _) ?_ hVok.order
        · rw [hj i (by omega)]; simp
        · rw [hj i (by omega)]; simp
        · rw [hj i (by omega)]
        · rw [hj i (by omega)]
        · rw [hc]; rfl
        · rw [hc]; rfl
        · rw [hc]; exact hcls
        · rw [hc]; rfl
        · intro x e1 e2
          rw [hj x e2]
          simp [e1]
        · intro hmm
          rw [if_pos hmm] at hmv
          refine ⟨⟨pos, i, s.next⟩, by rw [hmv]; simp, rfl, ?_, ?_⟩
          · rw [rt i (by omega)]; exact hr
          · rw [rtc]; exact hr
      · rw [kidsOf k' ne (by omega)]
        apply a4.same
        · intro x hx
          have hxr : rootOf s x = F.cfg.nregs + k' ∧ x < s.next := by
            rcases List.mem_cons.1 hx with rfl | hx
            · rw [rootOf, a1]; exact ⟨rfl, by omega⟩
            · obtain ⟨c1, c2, c3⟩ := a3 x hx
              rw [rootOf, c3]; exact ⟨rfl, c2⟩
          have e1 : x ≠ i := by
            rintro rfl
            rw [hr] at hxr
            omega
          rw [hj x (by omega)]
          simp [e1]
        · exact mvmono _
  · intro x a b
    by_cases e : x = s.next
    · subst e
      refine ⟨k, hkl, ?_, ?_, by rw [hc]; rfl⟩
      · rw [hc]
        simp only [newChild]
        rw [← hr]; rfl
      · rw [kidsSelf]
        have : s.next ∈ (F.cfg.nregs + k) :: newChildren s i s.next := by rw [hB]; simp
        rcases List.mem_cons.1 this with q | q
        · omega
        · exact q
    · obtain ⟨k', c1, c2, c3, c4⟩ := g.kid x a (by omega)
      refine ⟨k', c1, by rw [par x e]; exact c2, ?_, by rw [hj x e]; exact c4⟩
      by_cases ek : k' = k
      · subst ek
        rw [kidsSelf]
        have h3 : x ∈ (F.cfg.nregs + k') :: (s.heap (F.cfg.nregs + k')).children :=
          List.mem_cons_of_mem _ c3
        rw [hA] at h3
        have : x ∈ (F.cfg.nregs + k') :: newChildren s i s.next := by
          rw [hB]
          simp only [List.mem_append, List.mem_cons] at h3 ⊢
          rcases h3 with q | q | q
          · exact .inl q
          · exact .inr (.inl q)
          · exact .inr (.inr (.inr q))
        rcases List.mem_cons.1 this with q | q
        · omega
        · exact q
      · rw [kidsOf k' (by omega) (by omega)]; exact c3
  · intro m hmm
    have old : m ∈ s.moves → (F.cfg.nregs ≤ m.src ∧ m.src < s'.next) ∧
        (F.cfg.nregs ≤ m.dst ∧ m.dst < s'.next) ∧ rootOf s' m.src = rootOf s' m.dst ∧
        ∃ k V, F.vars[k]? = some V ∧ rootOf s' m.src = F.cfg.nregs + k ∧ Covers V.ranges m.pos := by
      intro q
      obtain ⟨b1, b2, b3, b4⟩ := g.mvs m q
      refine ⟨⟨b1.1, by omega⟩, ⟨b2.1, by omega⟩, ?_, ?_⟩
      · rw [rt _ (by omega), rt _ (by omega)]; exact b3
      · rw [rt _ (by omega)]; exact b4
    rw [hmv] at hmm
    split at hmm
    · rename_i hc1
      rcases List.mem_append.1 hmm with q | q
      · exact old q
      · rw [List.mem_singleton] at q
        subst q
        obtain ⟨s1, n1, z1⟩ := g.part h1 h2
        have H := halves s1 n1 z1 hlo hhi
        refine ⟨⟨h1, by simp only; omega⟩, ⟨by simp only; omega, by simp only; omega⟩, ?_, k, V, hk, ?_, ?_⟩
        · simp only; rw [rt i (by omega), rtc]
        · simp only; rw [rt i (by omega)]; exact hr
        · exact ((g.root k V hk).2.2.2.cov pos).2 ⟨i, hm, H.cm.1 hc1⟩
    · exact old hmm

end Nature.Alloc
