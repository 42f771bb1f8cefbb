import Verif.Alloc.Geo
/-
The invariant of the walk and the operations that keep it: split, enqueue, spill, assign.
-/
namespace Nature.Alloc
open Nature.Ranges (Range Covers Sorted NonEmpty splitRanges)

/-- The interval of a variable that had its register before the walk. -/
def Pre (F : Func) (i : Nat) : Prop :=
  ∃ k v, i = F.cfg.nregs + k ∧ F.vars[k]? = some v ∧ v.preset ≠ 0

/-- The slots in the frame. -/
structure Slots (F : Func) (s : St) : Prop where
  grow : F.stackOffset ≤ s.stackOffset
  slot : ∀ r, s.slots r ≠ 0 → F.cfg.nregs ≤ r ∧ r < F.cfg.nregs + F.vars.length ∧
    -s.stackOffset ≤ s.slots r ∧ s.slots r + (s.heap r).size ≤ -F.stackOffset
  apart : ∀ r r', r ≠ r' → s.slots r ≠ 0 → s.slots r' ≠ 0 →
    s.slots r + (s.heap r).size ≤ s.slots r' ∨ s.slots r' + (s.heap r').size ≤ s.slots r
  has : ∀ i, F.cfg.nregs ≤ i → i < s.next → (s.heap i).spilled = true →
    (s.heap (rootOf s i)).constFloat = true ∨ s.slots (rootOf s i) ≠ 0

/-- The invariant.  `P` is the position of the walk, `ex` the intervals in hand. -/
structure Inv (F : Func) (P : Int) (ex : List Nat) (s : St) : Prop where
  geo : Geo F s
  slot : Slots F s
  pre : ∀ i, Pre F i → (s.heap i).assigned ≠ 0
  must : ∀ i, F.cfg.nregs ≤ i → i < s.next → (s.heap i).spilled = true →
    ∀ u ∈ (s.heap i).uses, u.kind ≠ .must
  stk : ∀ i, F.cfg.nregs ≤ i → i < s.next → i ∉ ex → ¬ Pre F i → (s.heap i).assigned ≠ 0 →
    ∀ u ∈ (s.heap i).uses, u.kind ≠ .stack
  stat : ∀ i, F.cfg.nregs ≤ i → i < s.next → i ∉ ex →
    i ∈ s.unhandled ∨ (s.heap i).assigned ≠ 0 ∨ (s.heap i).spilled = true
  cls : ∀ i, i < s.next → (s.heap i).assigned ≠ 0 → ¬ Pre F i →
    1 ≤ (s.heap i).assigned ∧ (s.heap i).assigned < F.cfg.nregs ∧
    F.cfg.cls (s.heap i).assigned = (s.heap i).cls
  apart : ∀ i j, i < s.next → j < s.next → i ≠ j → (s.heap i).assigned = (s.heap j).assigned →
    (s.heap i).assigned ≠ 0 → ¬ Pre F i → ¬ Pre F j →
    ∀ p, Covers (s.heap i).ranges p → ¬ Covers (s.heap j).ranges p
  cover : ∀ i, i < s.next → i ∉ ex → (s.heap i).assigned ≠ 0 → ¬ Pre F i →
    i ∈ s.active ∨ i ∈ s.inactive ∨ (s.heap i).ranges = [] ∨ hi (s.heap i).ranges ≤ P
  lists : ∀ j, j ∈ s.active ∨ j ∈ s.inactive → j < s.next ∧
    (F.cfg.nregs ≤ j → (s.heap j).constFloat = false ∧ ¬ Pre F j)
  qs : s.unhandled.Pairwise fun x y => lo (s.heap x).ranges ≤ lo (s.heap y).ranges
  qn : s.unhandled.Nodup
  q : ∀ x ∈ s.unhandled, F.cfg.nregs ≤ x ∧ x < s.next ∧ P ≤ lo (s.heap x).ranges ∧
    ((s.heap x).assigned = 0 ∨ Pre F x)

/-- What an operation may have changed. -/
structure Step (s s' : St) : Prop where
  nx : s.next ≤ s'.next
  frm : ∀ j, j < s.next → lo (s'.heap j).ranges = lo (s.heap j).ranges
  til : ∀ j, j < s.next → hi (s'.heap j).ranges ≤ hi (s.heap j).ranges
  emp : ∀ j, j < s.next → (s.heap j).ranges = [] → (s'.heap j).ranges = []
  cov : ∀ j, j < s.next → ∀ p, Covers (s'.heap j).ranges p → Covers (s.heap j).ranges p
  asg : ∀ j, j < s.next → (s'.heap j).assigned = (s.heap j).assigned ∨ (s'.heap j).assigned = 0
  cls : ∀ j, j < s.next → (s'.heap j).cls = (s.heap j).cls
  fix : ∀ j, j < s.next → (s'.heap j).fixed = (s.heap j).fixed
  flt : ∀ j, j < s.next → (s'.heap j).constFloat = (s.heap j).constFloat
  use : ∀ j, j < s.next → ∀ u ∈ (s'.heap j).uses, u ∈ (s.heap j).uses
  que : ∀ x ∈ s'.unhandled, x ∈ s.unhandled ∨ s.next ≤ x
  act : s'.active = s.active
  ina : s'.inactive = s.inactive

theorem Step.refl (s : St) : Step s s :=
  ⟨Nat.le_refl _, fun _ _ => rfl, fun _ _ => Int.le_refl _, fun _ _ h => h, fun _ _ _ h => h,
    fun _ _ => .inl rfl, fun _ _ => rfl, fun _ _ => rfl, fun _ _ => rfl, fun _ _ _ h => h,
    fun _ h => .inl h, rfl, rfl⟩

theorem Step.trans {a b c : St} (h1 : Step a b) (h2 : Step b c) : Step a c := by
  have lt : ∀ {j}, j < a.next → j < b.next := fun h => Nat.lt_of_lt_of_le h h1.nx
  refine ⟨Nat.le_trans h1.nx h2.nx, ?_, ?_, ?_, ?_, ?_, ?_, ?_, ?_, ?_, ?_, ?_, ?_⟩
  · intro j h; rw [h2.frm j (lt h), h1.frm j h]
  · intro j h; exact Int.le_trans (h2.til j (lt h)) (h1.til j h)
  · intro j h e; exact h2.emp j (lt h) (h1.emp j h e)
  · intro j h p e; exact h1.cov j h p (h2.cov j (lt h) p e)
  · intro j h
    rcases h2.asg j (lt h) with e | e
    · rw [e]; exact h1.asg j h
    · exact .inr e
  · intro j h; rw [h2.cls j (lt h), h1.cls j h]
  · intro j h; rw [h2.fix j (lt h), h1.fix j h]
  · intro j h; rw [h2.flt j (lt h), h1.flt j h]
  · intro j h u e; exact h1.use j h u (h2.use j (lt h) u e)
  · intro x h
    rcases h2.que x h with e | e
    · exact h1.que x e
    · exact .inr (Nat.le_trans h1.nx e)
  · rw [h2.act, h1.act]
  · rw [h2.ina, h1.ina]

theorem pre_lt {F : Func} {i : Nat} (h : Pre F i) :
    F.cfg.nregs ≤ i ∧ i < F.cfg.nregs + F.vars.length := by
  obtain ⟨k, v, rfl, h, _⟩ := h
  have := (List.getElem?_eq_some_iff.1 h).1
  omega

/-! ### weakening -/

theorem Inv.add {F : Func} {P : Int} {ex : List Nat} {s : St} (I : Inv F P ex s) (i : Nat) :
    Inv F P (i :: ex) s :=
  { I with
    stk := fun j a b c => I.stk j a b (fun h => c (List.mem_cons_of_mem _ h))
    stat := fun j a b c => I.stat j a b (fun h => c (List.mem_cons_of_mem _ h))
    cover := fun j a c => I.cover j a (fun h => c (List.mem_cons_of_mem _ h)) }

theorem Inv.drop {F : Func} {P : Int} {ex : List Nat} {s : St} {i : Nat} (I : Inv F P (i :: ex) s)
    (h1 : i ∈ s.unhandled ∨ (s.heap i).assigned ≠ 0 ∨ (s.heap i).spilled = true)
    (h2 : ¬ Pre F i → (s.heap i).assigned ≠ 0 → ∀ u ∈ (s.heap i).uses, u.kind ≠ .stack)
    (h3 : (s.heap i).assigned ≠ 0 → ¬ Pre F i →
      i ∈ s.active ∨ i ∈ s.inactive ∨ (s.heap i).ranges = [] ∨ hi (s.heap i).ranges ≤ P) :
    Inv F P ex s :=
  { I with
    stk := by
      intro j a b c
      by_cases e : j = i
      · subst e; exact h2
      · exact I.stk j a b (by simp [e, c])
    stat := by
      intro j a b c
      by_cases e : j = i
      · subst e; exact h1
      · exact I.stat j a b (by simp [e, c])
    cover := by
      intro j a c
      by_cases e : j = i
      · subst e; exact h3
      · exact I.cover j a (by simp [e, c]) }

/-! ### split -/

/-- What a split does to its two halves. -/
structure Cut (s s' : St) (i c : Nat) (pos : Int) : Prop where
  c_eq : c = s.next
  next : s'.next = s.next + 1
  frm : lo (s.heap i).ranges < pos
  til : hi (s'.heap i).ranges ≤ pos
  cfrm : pos ≤ lo (s'.heap c).ranges
  left : ∀ p, Covers (s'.heap i).ranges p → p < pos
  uses : (s'.heap i).uses = (splitUses pos (s.heap i).uses).1
  cuses : (s'.heap c).uses = (splitUses pos (s.heap i).uses).2
  asg : (s'.heap i).assigned = (s.heap i).assigned
  casg : (s'.heap c).assigned = 0
  que : s'.unhandled = s.unhandled

theorem splitAt_inv {F : Func} (hF : F.Ok) {P : Int} {ex : List Nat} {bs : List Blk} {s s' : St}
    {i c : Nat} {pos : Int} (I : Inv F P ex s) (h1 : F.cfg.nregs ≤ i) (h2 : i < s.next)
    (h : splitAt bs s i pos = some (s', c)) :
    Inv F P (c :: ex) s' ∧ Step s s' ∧ Cut s s' i c pos := by
  have g := I.geo
  have g' := splitAt_geo hF g h1 h2 h
  have hrt := g.root_lt h1 h2
  have hnle := g.nle
  obtain ⟨rfl, hlo, hhi, _, hn, hcnt, hun, hac, hin, hsl, hso, hmv, hc, hj⟩ :=
    splitAt_spec h h2 (by omega)
  obtain ⟨s1, n1, z1⟩ := g.part h1 h2
  have H := halves s1 n1 z1 hlo hhi
  have ri : (s'.heap i).ranges = (splitRanges pos (s.heap i).ranges).1 := by
    rw [hj i (by omega)]; simp
  have rc : (s'.heap s.next).ranges = (splitRanges pos (s.heap i).ranges).2.1 := by rw [hc]; rfl
  rw [← ri, ← rc] at H
  have ro : ∀ j, j ≠ s.next → j ≠ i → (s'.heap j).ranges = (s.heap j).ranges := by
    intro j a b; rw [hj j a]; simp [b]
  have uo : ∀ j, j ≠ s.next → j ≠ i → (s'.heap j).uses = (s.heap j).uses := by
    intro j a b; rw [hj j a]; simp [b]
  have ui : (s'.heap i).uses = (splitUses pos (s.heap i).uses).1 := by
    rw [hj i (by omega)]; simp
  have ac : (s'.heap s.next).assigned = 0 := by rw [hc]; rfl
  have ao : ∀ j, j ≠ s.next → (s'.heap j).assigned = (s.heap j).assigned := by
    intro j a; rw [hj j a]
  have po : ∀ j, j ≠ s.next → (s'.heap j).spilled = (s.heap j).spilled := by
    intro j a; rw [hj j a]
  have zo : ∀ j, j ≠ s.next → (s'.heap j).size = (s.heap j).size := by
    intro j a; rw [hj j a]
  have fo : ∀ j, j ≠ s.next → (s'.heap j).constFloat = (s.heap j).constFloat := by
    intro j a; rw [hj j a]
  have rt : ∀ j, j ≠ s.next → rootOf s' j = rootOf s j := by
    intro j e; rw [rootOf, rootOf, hj j e]
  have cv : ∀ j, j ≠ s.next → ∀ p, Covers (s'.heap j).ranges p → Covers (s.heap j).ranges p := by
    intro j a p hp
    by_cases e : j = i
    · subst e; exact ((H.cl p).1 hp).1
    · rw [ro j a e] at hp; exact hp
  have uv : ∀ j, j ≠ s.next → ∀ u ∈ (s'.heap j).uses, u ∈ (s.heap j).uses := by
    intro j a u hu
    by_cases e : j = i
    · subst e; rw [ui] at hu
      rw [← splitUses_append pos (s.heap j).uses]; exact List.mem_append_left _ hu
    · rw [uo j a e] at hu; exact hu
  have lo_ : ∀ j, j ≠ s.next → lo (s'.heap j).ranges = lo (s.heap j).ranges := by
    intro j a
    by_cases e : j = i
    · subst e; exact H.lol
    · rw [ro j a e]
  have hi_ : ∀ j, j ≠ s.next → hi (s'.heap j).ranges ≤ hi (s.heap j).ranges := by
    intro j a
    by_cases e : j = i
    · subst e; have := H.hil; omega
    · rw [ro j a e]; omega
  have em : ∀ j, j ≠ s.next → (s.heap j).ranges = [] → (s'.heap j).ranges = [] := by
    intro j a e0
    by_cases e : j = i
    · subst e; exact absurd e0 z1
    · rw [ro j a e]; exact e0
  refine ⟨?_, ?_, ?_⟩
  · refine ⟨g', ?_, ?_, ?_, ?_, ?_, ?_, ?_, ?_, ?_, ?_, ?_, ?_⟩
    · have S := I.slot
      refine ⟨by rw [hso]; exact S.grow, ?_, ?_, ?_⟩
      · intro r; rw [hsl, hso]
        intro a
        obtain ⟨b1, b2, b3, b4⟩ := S.slot r a
        exact ⟨b1, b2, b3, by rw [zo r (by omega)]; exact b4⟩
      · intro r r' e; rw [hsl]
        intro a b
        have := S.slot r a
        have := S.slot r' b
        rw [zo r (by omega), zo r' (by omega)]
        exact S.apart r r' e a b
      · intro x a b e
        rw [hsl]
        by_cases ex : x = s.next
        · rw [ex, hc] at e; cases e
        · have := g.root_lt a (by omega)
          rw [rt x ex, fo _ (by omega)]
          exact S.has x a (by omega) (by rw [← po x ex]; exact e)
    · intro x a
      have := pre_lt a
      rw [ao x (by omega)]; exact I.pre x a
    · intro x a b e
      by_cases ex : x = s.next
      · rw [ex, hc] at e; cases e
      · rw [po x ex] at e
        intro u hu
        exact I.must x a (by omega) e u (uv x ex u hu)
    · intro x a b e p q u hu
      have ex : x ≠ s.next := by rintro rfl; exact e (List.mem_cons_self ..)
      rw [ao x ex] at q
      exact I.stk x a (by omega) (fun h => e (List.mem_cons_of_mem _ h)) p q u (uv x ex u hu)
    · intro x a b e
      have ex : x ≠ s.next := by rintro rfl; exact e (List.mem_cons_self ..)
      rw [ao x ex, po x ex, hun]
      exact I.stat x a (by omega) (fun h => e (List.mem_cons_of_mem _ h))
    · intro x a
      by_cases ex : x = s.next
      · intro e; rw [ex] at e; exact absurd ac e
      · rw [hj x ex]
        exact I.cls x (by omega)
    · intro x y a b e1 e2 e3 e4 e5 p c1 c2
      have ex : x ≠ s.next := by rintro rfl; exact e3 ac
      have ey : y ≠ s.next := by rintro rfl; rw [e2] at e3; exact e3 ac
      rw [ao x ex, ao y ey] at e2
      rw [ao x ex] at e3
      exact I.apart x y (by omega) (by omega) e1 e2 e3 e4 e5 p (cv x ex p c1) (cv y ey p c2)
    · intro x a e b p
      have ex : x ≠ s.next := by rintro rfl; exact e (List.mem_cons_self ..)
      rw [ao x ex] at b
      rw [hac, hin]
      rcases I.cover x (by omega) (fun h => e (List.mem_cons_of_mem _ h)) b p with q | q | q | q
      · exact .inl q
      · exact .inr (.inl q)
      · exact .inr (.inr (.inl (em x ex q)))
      · exact .inr (.inr (.inr (Int.le_trans (hi_ x ex) q)))
    · intro x; rw [hac, hin]
      intro a
      obtain ⟨b1, b2⟩ := I.lists x a
      exact ⟨by omega, fun q => by rw [fo x (by omega)]; exact b2 q⟩
    · rw [hun]
      apply I.qs.imp_of_mem
      intro a b ha hb hab
      have := (I.q a ha).2.1
      have := (I.q b hb).2.1
      rw [lo_ a (by omega), lo_ b (by omega)]; exact hab
    · rw [hun]; exact I.qn
    · intro x; rw [hun]
      intro a
      obtain ⟨b1, b2, b3, b4⟩ := I.q x a
      rw [lo_ x (by omega), ao x (by omega)]
      exact ⟨b1, by omega, b3, b4⟩
  · refine ⟨by omega, fun j a => lo_ j (by omega), fun j a => hi_ j (by omega),
      fun j a => em j (by omega), fun j a => cv j (by omega), fun j a => .inl (ao j (by omega)),
      ?_, ?_, fun j a => fo j (by omega), fun j a => uv j (by omega), ?_, hac, hin⟩
    · intro j a; rw [hj j (by omega)]
    · intro j a; rw [hj j (by omega)]
    · intro x; rw [hun]; exact .inl
  · exact ⟨rfl, hn, hlo, H.hil, H.lor, fun p hp => ((H.cl p).1 hp).2, ui, by rw [hc]; rfl,
      ao i (by omega), ac, hun⟩

/-! ### enqueue -/

theorem sortTo_mem {h : Nat → Iv} {d x : Nat} {l : List Nat} : x ∈ sortTo h d l ↔ x = d ∨ x ∈ l := by
  induction l with
  | nil => simp [sortTo]
  | cons y ys ih =>
    rw [sortTo]
    split
    · simp
    · simp only [List.mem_cons, ih]
      constructor
      · rintro (a | a | a)
        · exact .inr (.inl a)
        · exact .inl a
        · exact .inr (.inr a)
      · rintro (a | a | a)
        · exact .inr (.inl a)
        · exact .inl a
        · exact .inr (.inr a)

theorem sortTo_nodup {h : Nat → Iv} {d : Nat} {l : List Nat} (hn : l.Nodup) (hd : d ∉ l) :
    (sortTo h d l).Nodup := by
  induction l with
  | nil => simp [sortTo]
  | cons y ys ih =>
    rw [sortTo]
    split
    · exact List.nodup_cons.2 ⟨hd, hn⟩
    · rw [List.nodup_cons] at hn ⊢
      simp only [List.mem_cons, not_or] at hd
      refine ⟨?_, ih hn.2 hd.2⟩
      rw [sortTo_mem]
      rintro (e | e)
      · exact hd.1 e.symm
      · exact hn.1 e

theorem sortTo_sorted {h : Nat → Iv} {d : Nat} {l : List Nat}
    (hs : l.Pairwise fun x y => lo (h x).ranges ≤ lo (h y).ranges) :
    (sortTo h d l).Pairwise fun x y => lo (h x).ranges ≤ lo (h y).ranges := by
  induction l with
  | nil => simp [sortTo]
  | cons y ys ih =>
    rw [sortTo]
    simp only [frm_eq]
    split
    · rename_i hc
      rw [List.pairwise_cons]
      refine ⟨?_, hs⟩
      intro z hz
      rcases List.mem_cons.1 hz with rfl | hz
      · omega
      · have := (List.pairwise_cons.1 hs).1 z hz; omega
    · rename_i hc
      rw [List.pairwise_cons] at hs ⊢
      refine ⟨?_, ih hs.2⟩
      intro z hz
      rcases sortTo_mem.1 hz with rfl | hz
      · omega
      · exact hs.1 z hz

theorem enqueue_inv {F : Func} {P : Int} {ex : List Nat} {s : St} {d : Nat}
    (I : Inv F P (d :: ex) s) (h1 : F.cfg.nregs ≤ d) (h2 : d < s.next) (ha : (s.heap d).assigned = 0)
    (hp : P ≤ lo (s.heap d).ranges) (hd : d ∉ s.unhandled) : Inv F P ex (enqueue s d) := by
  have J : Inv F P (d :: ex) (enqueue s d) := by
    refine ⟨⟨I.geo.nle, I.geo.low, I.geo.free, I.geo.idx, I.geo.cnt, I.geo.root, I.geo.kid, I.geo.mvs⟩,
      ⟨I.slot.grow, I.slot.slot, I.slot.apart, I.slot.has⟩, I.pre, I.must, I.stk, ?_, I.cls, I.apart,
      I.cover, I.lists, ?_, ?_, ?_⟩
    · intro i a b c
      rcases I.stat i a b c with q | q
      · exact .inl (sortTo_mem.2 (.inr q))
      · exact .inr q
    · exact sortTo_sorted I.qs
    · exact sortTo_nodup I.qn hd
    · intro x hx
      rcases sortTo_mem.1 hx with rfl | hx
      · exact ⟨h1, h2, hp, .inl ha⟩
      · exact I.q x hx
  apply J.drop
  · exact .inl (sortTo_mem.2 (.inl rfl))
  · intro _ q; exact absurd ha q
  · intro q; exact absurd ha q

theorem enqueue_step {s : St} {d : Nat} {t : St} (h : Step s t) (hd : s.next ≤ d) :
    Step s (enqueue t d) :=
  ⟨h.nx, h.frm, h.til, h.emp, h.cov, h.asg, h.cls, h.fix, h.flt, h.use,
    fun x hx => by
      rcases sortTo_mem.1 hx with rfl | hx
      · exact .inr hd
      · exact h.que x hx,
    h.act, h.ina⟩

/-! ### spill -/

theorem alignUp_ge {n a : Int} (h : 0 < a) : n ≤ alignUp n a := by
  rw [alignUp]
  have h1 := Int.emod_add_mul_ediv (n + a - 1) a
  have h2 := Int.emod_lt_of_pos (n + a - 1) h
  have h3 : (n + a - 1) / a * a = a * ((n + a - 1) / a) := Int.mul_comm ..
  omega

theorem spillSlot_inv {F : Func} (hF : F.Ok) {P : Int} {ex : List Nat} {s s' : St} {i : Nat}
    (I : Inv F P (i :: ex) s) (h1 : F.cfg.nregs ≤ i) (h2 : i < s.next) (hp : ¬ Pre F i)
    (hm : ∀ u ∈ (s.heap i).uses, u.kind ≠ .must) (h : spillSlot s i = some s') :
    Inv F P ex s' ∧ Step s s' ∧ (s'.heap i).assigned = 0 := by
  have g := I.geo
  have hrt := g.root_lt h1 h2
  have hnle := g.nle
  obtain ⟨k, V, hk, hr, hmem⟩ := g.own h1 h2
  have hsz : (s.heap (rootOf s i)).size = (s.heap i).size := by
    have P := (g.root k V hk).2.2.2
    rw [hr, P.size _ (List.mem_cons_self ..), P.size i hmem]
  have hr1 : F.cfg.nregs ≤ rootOf s i := by omega
  -- the shape of the result
  have main : ∃ sl off, s' = { s.set i { s.heap i with assigned := 0, spilled := true } with
        slots := sl, stackOffset := off } ∧
      s.stackOffset ≤ off ∧
      ((s.heap i).constFloat = true ∨ sl (rootOf s i) ≠ 0) ∧
      (∀ r, sl r ≠ 0 → s.slots r = sl r ∨ (r = rootOf s i ∧ s.slots r = 0 ∧ -off ≤ sl r ∧
        sl r + (s.heap r).size ≤ -s.stackOffset)) ∧ (∀ r, s.slots r ≠ 0 → sl r = s.slots r) := by
    rw [spillSlot] at h
    simp only at h
    split at h
    · rename_i hc
      cases h
      exact ⟨s.slots, s.stackOffset, rfl, by omega, .inl hc, fun r _ => .inl rfl, fun _ _ => rfl⟩
    · split at h
      · rename_i hc
        cases h
        exact ⟨s.slots, s.stackOffset, rfl, by omega, .inr hc, fun r _ => .inl rfl, fun _ _ => rfl⟩
      · rename_i hz
        split at h
        · rename_i hsize
          cases h
          have hge := alignUp_ge (n := s.stackOffset + (s.heap i).size) hsize.2
          have hz' : s.slots (rootOf s i) = 0 := by simpa [rootOf] using hz
          refine ⟨_, _, rfl, by omega, .inr ?_, ?_, ?_⟩
          · simp only [rootOf, if_true]
            have := I.slot.grow
            have := hF.frame
            omega
          · intro r hne
            by_cases e : r = rootOf s i
            · right
              subst e
              refine ⟨rfl, hz', ?_, ?_⟩
              · simp only [rootOf, if_true]; omega
              · rw [hsz]; simp only [rootOf, if_true]; omega
            · left
              rw [if_neg (by simpa [rootOf] using e)]
          · intro r hne
            rw [if_neg]
            rintro rfl
            exact hne hz'
        · cases h
  obtain ⟨sl, off, rfl, hoff, hhas, hsl, hkeep⟩ := main
  clear h
  have hs : ∀ j, j ≠ i → (s.set i { s.heap i with assigned := 0, spilled := true }).heap j = s.heap j := by
    intro j e; simp [St.set, e]
  have hsi : (s.set i { s.heap i with assigned := 0, spilled := true }).heap i =
      { s.heap i with assigned := 0, spilled := true } := by simp [St.set]
  have fld : ∀ j, ∃ a b, (s.set i { s.heap i with assigned := 0, spilled := true }).heap j =
      { s.heap j with assigned := a, spilled := b } ∧ (a = (s.heap j).assigned ∨ a = 0) := by
    intro j
    by_cases e : j = i
    · subst e; exact ⟨_, _, hsi, .inr rfl⟩
    · exact ⟨_, _, hs j e, .inl rfl⟩
  have g' : Geo F { s.set i { s.heap i with assigned := 0, spilled := true } with
      slots := sl, stackOffset := off } := by
    apply g.same
    · rfl
    · rfl
    · rfl
    · intro j hj; exact hs j (by omega)
    · intro j
      obtain ⟨a, b, e, _⟩ := fld j
      simp only
      rw [e]
      simp
  have rt : ∀ j, rootOf { s.set i { s.heap i with assigned := 0, spilled := true } with
      slots := sl, stackOffset := off } j = rootOf s j := by
    intro j
    obtain ⟨a, b, e, _⟩ := fld j
    simp only [rootOf]; rw [e]
  have rg : ∀ j, ((s.set i { s.heap i with assigned := 0, spilled := true }).heap j).ranges =
      (s.heap j).ranges := by intro j; obtain ⟨a, b, e, _⟩ := fld j; rw [e]
  have us : ∀ j, ((s.set i { s.heap i with assigned := 0, spilled := true }).heap j).uses =
      (s.heap j).uses := by intro j; obtain ⟨a, b, e, _⟩ := fld j; rw [e]
  have sz : ∀ j, ((s.set i { s.heap i with assigned := 0, spilled := true }).heap j).size =
      (s.heap j).size := by intro j; obtain ⟨a, b, e, _⟩ := fld j; rw [e]
  have ft : ∀ j, ((s.set i { s.heap i with assigned := 0, spilled := true }).heap j).constFloat =
      (s.heap j).constFloat := by intro j; obtain ⟨a, b, e, _⟩ := fld j; rw [e]
  have cl : ∀ j, ((s.set i { s.heap i with assigned := 0, spilled := true }).heap j).cls =
      (s.heap j).cls := by intro j; obtain ⟨a, b, e, _⟩ := fld j; rw [e]
  have fx : ∀ j, ((s.set i { s.heap i with assigned := 0, spilled := true }).heap j).fixed =
      (s.heap j).fixed := by intro j; obtain ⟨a, b, e, _⟩ := fld j; rw [e]
  have ag : ∀ j, ((s.set i { s.heap i with assigned := 0, spilled := true }).heap j).assigned ≠ 0 →
      j ≠ i ∧ ((s.set i { s.heap i with assigned := 0, spilled := true }).heap j).assigned =
        (s.heap j).assigned := by
    intro j h
    by_cases e : j = i
    · subst e; rw [hsi] at h; exact absurd rfl h
    · exact ⟨e, by rw [hs j e]⟩
  have notin : ∀ j, j ≠ i → j ∉ ex → j ∉ i :: ex := by
    intro j a b c; rcases List.mem_cons.1 c with q | q
    · exact a q
    · exact b q
  refine ⟨?_, ?_, by simp only; rw [hsi]⟩
  · refine ⟨g', ?_, ?_, ?_, ?_, ?_, ?_, ?_, ?_, ?_, ?_, I.qn, ?_⟩
    · have S := I.slot
      refine ⟨by simp only; have := S.grow; omega, ?_, ?_, ?_⟩
      · intro r hne
        simp only at hne ⊢
        rw [sz]
        rcases hsl r hne with e | ⟨rfl, _, b1, b2⟩
        · obtain ⟨c1, c2, c3, c4⟩ := S.slot r (by rw [e]; exact hne)
          rw [← e]
          exact ⟨c1, c2, by omega, c4⟩
        · have := S.grow
          exact ⟨hr1, hrt, b1, by omega⟩
      · intro r r' hrr a b
        simp only at a b ⊢
        rw [sz, sz]
        rcases hsl r a with e | ⟨e1, _, b1, b2⟩
        · rcases hsl r' b with e' | ⟨e1', _, b1', b2'⟩
          · rw [← e, ← e']
            exact S.apart r r' hrr (by rw [e]; exact a) (by rw [e']; exact b)
          · have := (S.slot r (by rw [e]; exact a)).2.2.1
            right; omega
        · rcases hsl r' b with e' | ⟨e1', _, b1', b2'⟩
          · have := (S.slot r' (by rw [e']; exact b)).2.2.1
            left; omega
          · omega
      · intro x a b e
        rw [rt]
        simp only at e ⊢
        rw [ft]
        by_cases ex : x = i
        · subst ex
          rcases hhas with q | q
          · -- a constant is its own root
            left
            by_cases hx : x < F.cfg.nregs + F.vars.length
            · rw [rootOf]
              have hg := g.root (x - F.cfg.nregs) _
                (List.getElem?_eq_getElem (by omega : x - F.cfg.nregs < F.vars.length))
              have e' : F.cfg.nregs + (x - F.cfg.nregs) = x := by omega
              rw [e'] at hg
              rw [hg.1]; exact q
            · obtain ⟨_, _, _, _, q'⟩ := g.kid x (by omega) h2
              rw [q'] at q; cases q
          · exact .inr q
        · rw [hs x ex] at e
          rcases S.has x a b e with q | q
          · exact .inl q
          · exact .inr (by rw [hkeep _ q]; exact q)
    · intro x hx
      have : x ≠ i := by rintro rfl; exact hp hx
      simp only; rw [hs x this]; exact I.pre x hx
    · intro x a b e
      simp only at e ⊢
      rw [us]
      by_cases ex : x = i
      · subst ex; exact hm
      · rw [hs x ex] at e; exact I.must x a b e
    · intro x a b c d e
      simp only at e ⊢
      obtain ⟨n, e'⟩ := ag x e
      rw [us]; rw [e'] at e
      exact I.stk x a b (notin x n c) d e
    · intro x a b c
      simp only
      by_cases ex : x = i
      · subst ex; rw [hsi]; exact .inr (.inr rfl)
      · rw [hs x ex]; exact I.stat x a b (notin x ex c)
    · intro x a b c
      simp only at b ⊢
      obtain ⟨n, e'⟩ := ag x b
      rw [e', cl]; rw [e'] at b
      exact I.cls x a b c
    · intro x y a b c d e f g p
      simp only at d e ⊢
      obtain ⟨n, e'⟩ := ag x e
      have e2 := e
      rw [d] at e2
      obtain ⟨n2, e2'⟩ := ag y e2
      rw [e', e2'] at d
      rw [e'] at e
      rw [rg, rg]
      exact I.apart x y a b c d e f g p
    · intro x a b c d
      simp only at c ⊢
      obtain ⟨n, e'⟩ := ag x c
      rw [e'] at c
      rw [rg]
      exact I.cover x a (notin x n b) c d
    · intro x a
      obtain ⟨b1, b2⟩ := I.lists x a
      refine ⟨b1, ?_⟩
      simp only; rw [ft]; exact b2
    · have := I.qs
      simp only
      apply this.imp
      intro a b hab
      rw [rg, rg]; exact hab
    · intro x hx
      obtain ⟨b1, b2, b3, b4⟩ := I.q x hx
      simp only
      rw [rg]
      refine ⟨b1, b2, b3, ?_⟩
      rcases b4 with q | q
      · obtain ⟨a, b, e, z⟩ := fld x
        rw [e]; simp only
        rcases z with z | z
        · left; rw [z]; exact q
        · exact .inl z
      · exact .inr q
  · refine ⟨Nat.le_refl _, ?_, ?_, ?_, ?_, ?_, ?_, ?_, ?_, ?_, ?_, rfl, rfl⟩
    · intro j _; simp only; rw [rg]
    · intro j _; simp only; rw [rg]; omega
    · intro j _ e; simp only; rw [rg]; exact e
    · intro j _ p e; simp only at e; rw [rg] at e; exact e
    · intro j _
      obtain ⟨a, b, e, z⟩ := fld j
      simp only
      rw [e]; exact z
    · intro j _; simp only; rw [cl]
    · intro j _; simp only; rw [fx]
    · intro j _; simp only; rw [ft]
    · intro j _ u e; simp only at e; rw [us] at e; exact e
    · intro x hx; exact .inl hx

end Nature.Alloc
