/-
Which edges are split.
-/
import Verif.Cfg.Split
namespace Nature.Cfg

/-- A block has several successors. -/
def forks (g : Graph) (l : Label) : Bool := (succsOf g l).length > 1

/-- The predecessors that stay when `f` tells which ones are to be replaced: after one has been replaced, the next one is passed
over. -/
def kept (f : Label → Bool) : List Label → List Label
  | [] => []
  | [p] => if f p then [] else [p]
  | p :: q :: r => if f p then q :: kept f r else p :: kept f (q :: r)

theorem kept_neg {f : Nat → Bool} {p : Nat} (h : ¬ f p = true) (r : List Nat) : kept f (p :: r) = p :: kept f r := by
  cases r with
  | nil => simp [kept, h]
  | cons q r => rw [kept, if_neg h]

/-- One that should be replaced stays just if two of them are neighbours. -/
theorem kept_adjacent {f : Nat → Bool} : ∀ (l : List Nat), (∃ p ∈ kept f l, f p = true) ↔ ∃ p q, Adjacent l p q ∧ f p = true ∧ f q = true
  | [] => by simp [kept, Adjacent]
  | [p] => by
    constructor
    · rintro ⟨x, hx, h⟩
      rw [kept] at hx
      split at hx
      · simp at hx
      · simp only [List.mem_singleton] at hx
        subst hx
        exact absurd h (by assumption)
    · rintro ⟨a, b, ⟨u, v, e⟩, _⟩
      have := congrArg List.length e
      simp at this
      omega
  | p :: q :: r => by
    have ih1 := kept_adjacent (f := f) r
    have ih2 := kept_adjacent (f := f) (q :: r)
    have hcons : ∀ (x : Nat) (l : List Nat) a b, Adjacent l a b → Adjacent (x :: l) a b :=
      fun x l a b ⟨u, v, e⟩ => ⟨x :: u, v, by rw [e]; rfl⟩
    have hinv : ∀ (x : Nat) (l : List Nat) a b, Adjacent (x :: l) a b → (x = a ∧ l.head? = some b) ∨ Adjacent l a b := by
      rintro x l a b ⟨u, v, e⟩
      cases u with
      | nil => obtain ⟨rfl, rfl⟩ := List.cons.inj e; exact .inl ⟨rfl, rfl⟩
      | cons y u => obtain ⟨rfl, rfl⟩ := List.cons.inj e; exact .inr ⟨u, v, rfl⟩
    rw [kept]
    by_cases hp : f p = true
    · rw [if_pos hp]
      simp only [List.mem_cons]
      constructor
      · rintro ⟨x, rfl | hx, h⟩
        · exact ⟨p, x, ⟨[], r, rfl⟩, hp, h⟩
        · obtain ⟨a, b, h1, h2⟩ := ih1.mp ⟨x, hx, h⟩
          exact ⟨a, b, hcons _ _ _ _ (hcons _ _ _ _ h1), h2⟩
      · rintro ⟨a, b, h1, h2, h3⟩
        rcases hinv _ _ _ _ h1 with ⟨rfl, e⟩ | h1
        · simp only [List.head?_cons, Option.some.injEq] at e
          subst e
          exact ⟨q, .inl rfl, h3⟩
        · rcases hinv _ _ _ _ h1 with ⟨rfl, e⟩ | h1
          · exact ⟨_, .inl rfl, h2⟩
          · obtain ⟨x, hx, h⟩ := ih1.mpr ⟨a, b, h1, h2, h3⟩
            exact ⟨x, .inr hx, h⟩
    · rw [if_neg hp]
      constructor
      · rintro ⟨x, hx, h⟩
        rcases List.mem_cons.mp hx with rfl | hx
        · exact absurd h hp
        · obtain ⟨a, b, h1, h2⟩ := ih2.mp ⟨x, hx, h⟩
          exact ⟨a, b, hcons _ _ _ _ h1, h2⟩
      · rintro ⟨a, b, h1, h2, h3⟩
        rcases hinv _ _ _ _ h1 with ⟨rfl, e⟩ | h1
        · exact absurd h2 hp
        · obtain ⟨x, hx, h⟩ := ih2.mpr ⟨a, b, h1, h2, h3⟩
          exact ⟨x, List.mem_cons_of_mem _ hx, h⟩

theorem kept_append {f : Nat → Bool} {n : Nat} (hn : f n = false) : ∀ (l : List Nat) (m : Nat), m ≠ n →
    (m ∈ kept f (l ++ [n]) ↔ m ∈ kept f l)
  | [], m, hm => by simp [kept, hn, hm]
  | [p], m, hm => by
    simp only [List.cons_append, List.nil_append, kept]
    split <;> simp [kept, hn, hm]
  | p :: q :: r, m, hm => by
    have ih1 := kept_append hn r m hm
    have ih2 := kept_append hn (q :: r) m hm
    simp only [List.cons_append] at ih2 ⊢
    rw [kept, kept]
    split
    · simp only [List.mem_cons, ih1]
    · simp only [List.mem_cons, ih2]

theorem kept_congr {f f' : Nat → Bool} : ∀ (l : List Nat), (∀ x ∈ l, f x = f' x) → kept f l = kept f' l
  | [], _ => rfl
  | [p], h => by simp [kept, h p (by simp)]
  | p :: q :: r, h => by
    have ih1 := kept_congr r fun x hx => h x (by simp [hx])
    have ih2 := kept_congr (q :: r) fun x hx => h x (by simp [List.mem_cons.mp hx])
    rw [kept, kept, h p (by simp), ih1, ih2]

/-- How the graph grows: blocks keep the numbers of their neighbours; new blocks have one predecessor and one successor. -/
structure Ext (t : Nat) (g : Graph) (t' : Nat) (g' : Graph) : Prop where
  le : t ≤ t'
  old : ∀ b ∈ g, ∃ b' ∈ g', b'.name = b.name ∧ b'.preds.length = b.preds.length ∧ b'.succs.length = b.succs.length
  new : ∀ b' ∈ g', (∃ b ∈ g, b.name = b'.name) ∨ (t ≤ b'.name ∧ b'.preds.length = 1 ∧ b'.succs.length = 1)

theorem Ext.refl (t : Nat) (g : Graph) : Ext t g t g :=
  ⟨Nat.le_refl _, fun b hb => ⟨b, hb, rfl, rfl, rfl⟩, fun b hb => .inl ⟨b, hb, rfl⟩⟩

theorem Ext.trans {t t' t'' : Nat} {g g' g'' : Graph} (h : Ext t g t' g') (h' : Ext t' g' t'' g'')
    (hn : (g''.map (·.name)).Nodup) : Ext t g t'' g'' := by
  refine ⟨Nat.le_trans h.le h'.le, fun b hb => ?_, fun b hb => ?_⟩
  · obtain ⟨b1, h1, a1, a2, a3⟩ := h.old b hb
    obtain ⟨b2, h2, c1, c2, c3⟩ := h'.old b1 h1
    exact ⟨b2, h2, c1.trans a1, c2.trans a2, c3.trans a3⟩
  · rcases h'.new b hb with ⟨b1, h1, a1⟩ | ⟨h1, h2⟩
    · rcases h.new b1 h1 with ⟨b2, h2, a2⟩ | ⟨h2, h3, h4⟩
      · exact .inl ⟨b2, h2, a2.trans a1⟩
      · obtain ⟨b3, hb3, c1, c2, c3⟩ := h'.old b1 h1
        have := same_name hn hb3 hb (c1.trans a1)
        subst this
        exact .inr ⟨by omega, by omega, by omega⟩
    · exact .inr ⟨Nat.le_trans h.le h1, h2⟩

theorem Ext.forks {t t' : Nat} {g g' : Graph} (h : Ext t g t' g') (hn : (g.map (·.name)).Nodup) (hn' : (g'.map (·.name)).Nodup)
    {b : Block} (hb : b ∈ g) : forks g' b.name = forks g b.name := by
  obtain ⟨b', hb', h1, _, h3⟩ := h.old b hb
  unfold Cfg.forks
  rw [succsOf_mem hn hb, ← h1, succsOf_mem hn' hb', h3]

/-- Splitting an edge, seen from outside. -/
theorem splitEdge_ext {t : Nat} {g : Graph} (hg : Good t g) {x y : Block} (hx : x ∈ g) (hy : y ∈ g) (hs : y.name ∈ x.succs)
    (h2 : 1 < x.succs.length) {g' : Graph} (h : splitEdge g x.name y.name t = some g') :
    Ext t g (t + 1) g' ∧ (∀ z ∈ g, z.name ≠ y.name → predsOf g' z.name = z.preds) ∧ predsOf g' y.name = y.preds.erase x.name ++ [t] ∧
      forks g' t = false := by
  have hnd := (splitEdge_good (g' := g') hg · hx hy hs h2 h)
  rw [splitEdge_eq hg hx hy hs h2] at h
  obtain rfl := Option.some.inj h
  have hpx : x.name ∈ y.preds := (hg.edge y hy x.name).mpr ⟨x, hx, rfl, hs⟩
  have hnd : ((g.map (splitBlock x.name y.name t) ++ [(⟨t, [.label t, .bal y.name], [x.name], [y.name]⟩ : Block)]).map (·.name)).Nodup := by
    rw [List.map_append, List.map_map, List.nodup_append]
    refine ⟨hg.nodup, by simp, ?_⟩
    intro a ha b hb
    obtain ⟨z, hz, rfl⟩ := List.mem_map.mp ha
    simp only [List.map_cons, List.map_nil, List.mem_singleton] at hb
    rw [hb]
    have := hg.fresh z hz
    show z.name ≠ t
    omega
  have hold : ∀ z ∈ g, splitBlock x.name y.name t z ∈ g.map (splitBlock x.name y.name t) ++ [(⟨t, [.label t, .bal y.name], [x.name], [y.name]⟩ : Block)] :=
    fun z hz => List.mem_append_left _ (List.mem_map_of_mem hz)
  refine ⟨⟨by omega, fun z hz => ⟨_, hold z hz, rfl, ?_, ?_⟩, fun z' hz' => ?_⟩, fun z hz hzy => ?_, ?_, ?_⟩
  · unfold splitBlock
    dsimp only
    split
    · next e =>
      rw [same_name hg.nodup hz hy e, List.length_append, List.length_erase_of_mem hpx]
      have := List.length_pos_of_mem hpx
      simp only [List.length_cons, List.length_nil]
      omega
    · rfl
  · unfold splitBlock
    dsimp only
    split
    · next e =>
      rw [same_name hg.nodup hz hx e, List.length_append, List.length_erase_of_mem hs]
      simp only [List.length_cons, List.length_nil]
      omega
    · rfl
  · rw [List.mem_append, List.mem_singleton] at hz'
    rcases hz' with hz' | rfl
    · obtain ⟨z, hz, rfl⟩ := List.mem_map.mp hz'
      exact .inl ⟨z, hz, rfl⟩
    · exact .inr ⟨Nat.le_refl _, rfl, rfl⟩
  · have h0 := predsOf_mem hnd (hold z hz)
    rw [show (splitBlock x.name y.name t z).name = z.name from rfl] at h0
    rw [h0]
    simp [splitBlock, hzy]
  · have h0 := predsOf_mem hnd (hold y hy)
    rw [show (splitBlock x.name y.name t y).name = y.name from rfl] at h0
    rw [h0]
    simp [splitBlock]
  · have h0 := succsOf_mem hnd (b := ⟨t, [.label t, .bal y.name], [x.name], [y.name]⟩) (by simp)
    unfold forks
    rw [show succsOf _ t = [y.name] from h0]
    rfl

/-- The edges into one block. -/
theorem splitPreds_spec (b : Label) : ∀ (k i t : Nat) (g : Graph) (dn rest : List Nat), Good t g → (∀ x ∈ g, Reach g x.name) →
    (∃ y ∈ g, y.name = b) → predsOf g b = dn ++ rest → dn.length = i → rest.length = k →
    ∃ g' t', splitPreds b k i t g = some (g', t') ∧ Good t' g' ∧ (∀ x ∈ g', Reach g' x.name) ∧
      Same (graphJumps g) (entryOps g) (graphJumps g') (entryOps g') ∧ g'.head?.map (·.name) = g.head?.map (·.name) ∧
      Ext t g t' g' ∧ (∀ z ∈ g, z.name ≠ b → predsOf g' z.name = z.preds) ∧
      ((predsOf g b).length > 1 → ∀ m, m < t → (m ∈ predsOf g' b ↔ m ∈ dn ∨ m ∈ kept (forks g) rest)) := by
  intro k
  induction k with
  | zero =>
    intro i t g dn rest hg hr hb hp h1 h2
    obtain rfl : rest = [] := List.eq_nil_of_length_eq_zero h2
    refine ⟨g, t, rfl, hg, hr, fun _ _ _ _ => ⟨Iff.rfl, Iff.rfl⟩, rfl, Ext.refl _ _, fun z hz _ => predsOf_mem hg.nodup hz, ?_⟩
    intro _ m _
    rw [hp]
    simp [kept]
  | succ k ih =>
    intro i t g dn rest hg hr hb hp h1 h2
    cases rest with
    | nil => simp at h2
    | cons p rest =>
      simp only [List.length_cons, Nat.add_right_cancel_iff] at h2
      obtain ⟨y, hy, rfl⟩ := hb
      have hpy := predsOf_mem hg.nodup hy
      have hget : (predsOf g y.name)[i]? = some p := by
        rw [hp, List.getElem?_append_right (by omega), h1]
        simp
      rw [splitPreds, hget]
      dsimp only
      have hpm : p ∈ y.preds := by rw [← hpy, hp]; simp
      obtain ⟨x, hx, rfl, hxy⟩ := (hg.edge y hy p).mp hpm
      by_cases hc : critical g x.name y.name = true
      · rw [if_pos hc]
        have hc' := hc
        unfold critical at hc'
        simp only [Bool.and_eq_true, decide_eq_true_eq] at hc'
        have hxs : 1 < x.succs.length := by rw [← succsOf_mem hg.nodup hx]; exact hc'.2
        have hfx : forks g x.name = true := by unfold forks; simp only [decide_eq_true_eq]; exact hc'.2
        have heq := splitEdge_eq hg hx hy hxy hxs
        generalize hG : (g.map (splitBlock x.name y.name t) ++ [⟨t, [.label t, .bal y.name], [x.name], [y.name]⟩] : Graph) = g1 at heq
        obtain ⟨a1, a2, a3, a4⟩ := splitEdge_good hg hr hx hy hxy hxs heq
        obtain ⟨c1, c2, c3, c4⟩ := splitEdge_ext hg hx hy hxy hxs heq
        have hd : (dn ++ x.name :: rest).Nodup := by rw [← hp, hpy]; exact hg.npreds y hy
        have hxd : x.name ∉ dn := by
          intro h
          rw [List.nodup_append] at hd
          exact hd.2.2 _ h _ (by simp) rfl
        have hp1 : predsOf g1 y.name = dn ++ (rest ++ [t]) := by
          rw [c3, ← hpy, hp, List.erase_append_right _ hxd, List.erase_cons_head, List.append_assoc]
        rw [heq, Option.bind_some]
        obtain ⟨q, r1, hqr⟩ : ∃ q r1, rest ++ [t] = q :: r1 := by
          cases rest with
          | nil => exact ⟨t, [], rfl⟩
          | cons q r => exact ⟨q, r ++ [t], rfl⟩
        have hl : r1.length = k := by
          have := congrArg List.length hqr
          simp only [List.length_append, List.length_cons, List.length_nil] at this
          omega
        obtain ⟨y1, hy1, e1, e2, e3⟩ := c1.old y hy
        obtain ⟨g', t', b1, b2, b3, b4, b5, b6, b7, b8⟩ := ih (i + 1) (t + 1) g1 (dn ++ [q]) r1 a1 a2 ⟨y1, hy1, e1⟩
          (by rw [hp1, hqr]; simp) (by simp [h1]) hl
        refine ⟨g', t', b1, b2, b3, a3.trans b4, b5.trans a4, c1.trans b6 b2.nodup, ?_, ?_⟩
        · intro z hz hzy
          obtain ⟨z1, hz1, f1, _, _⟩ := c1.old z hz
          have := b7 z1 hz1 (f1 ▸ hzy)
          rw [f1] at this
          rw [this, ← predsOf_mem a1.nodup hz1, f1, c2 z hz hzy]
        · intro hlen m hm
          have hlen1 : (predsOf g1 y.name).length > 1 := by
            rw [← e1, predsOf_mem a1.nodup hy1, e2, ← hpy]
            exact hlen
          rw [b8 hlen1 m (by omega)]
          have hcg : ∀ (l : List Nat), (∀ x ∈ l, x ∈ rest) → kept (forks g1) l = kept (forks g) l := by
            intro l hl
            refine kept_congr _ fun z hz => ?_
            have : z ∈ y.preds := by rw [← hpy, hp]; simp [hl z hz]
            obtain ⟨w, hw, rfl, _⟩ := (hg.edge y hy z).mp this
            exact c1.forks hg.nodup a1.nodup hw
          cases rest with
          | nil =>
            rw [kept, if_pos hfx]
            simp only [List.nil_append, List.cons.injEq] at hqr
            obtain ⟨rfl, rfl⟩ := hqr
            simp only [kept, List.mem_append, List.mem_singleton, List.not_mem_nil, or_false]
            constructor
            · rintro (h | rfl)
              · exact h
              · omega
            · exact .inl
          | cons q0 r0 =>
            simp only [List.cons_append, List.cons.injEq] at hqr
            obtain ⟨rfl, rfl⟩ := hqr
            rw [kept, if_pos hfx]
            rw [kept_append c4 r0 m (by omega), hcg r0 fun x hx => by simp [hx]]
            simp only [List.mem_append, List.mem_singleton, List.mem_cons, or_assoc, List.not_mem_nil, or_false]
      · rw [if_neg hc]
        obtain ⟨g', t', b1, b2, b3, b4, b5, b6, b7, b8⟩ := ih (i + 1) t g (dn ++ [x.name]) rest hg hr ⟨y, hy, rfl⟩
          (by rw [hp]; simp) (by simp [h1]) h2
        refine ⟨g', t', b1, b2, b3, b4, b5, b6, b7, ?_⟩
        intro hlen m hm
        rw [b8 hlen m hm]
        have hfx : ¬ forks g x.name = true := by
          intro h
          apply hc
          unfold critical
          unfold forks at h
          simp only [Bool.and_eq_true, decide_eq_true_eq] at h ⊢
          exact ⟨hlen, h⟩
        rw [kept_neg hfx]
        simp only [List.mem_append, List.mem_singleton, List.mem_cons, or_assoc, List.not_mem_nil, or_false]

/-- All blocks. -/
theorem splitAll_spec : ∀ (ls : List Nat) (t : Nat) (g : Graph), Good t g → (∀ x ∈ g, Reach g x.name) →
    (∀ l ∈ ls, ∃ y ∈ g, y.name = l) → ls.Nodup →
    ∃ g' t', splitAll ls t g = some (g', t') ∧ Good t' g' ∧ (∀ x ∈ g', Reach g' x.name) ∧
      Same (graphJumps g) (entryOps g) (graphJumps g') (entryOps g') ∧ g'.head?.map (·.name) = g.head?.map (·.name) ∧
      Ext t g t' g' ∧ (∀ z ∈ g, z.name ∉ ls → predsOf g' z.name = z.preds) ∧
      (∀ z ∈ g, z.name ∈ ls → z.preds.length > 1 → ∀ m, m < t → (m ∈ predsOf g' z.name ↔ m ∈ kept (forks g) z.preds)) := by
  intro ls
  induction ls with
  | nil =>
    intro t g hg hr _ _
    exact ⟨g, t, rfl, hg, hr, fun _ _ _ _ => ⟨Iff.rfl, Iff.rfl⟩, rfl, Ext.refl _ _, fun z hz _ => predsOf_mem hg.nodup hz, by simp⟩
  | cons l ls ih =>
    intro t g hg hr hl hd
    rw [List.nodup_cons] at hd
    rw [List.forall_mem_cons] at hl
    obtain ⟨g1, t1, a1, a2, a3, a4, a5, a6, a7, a8⟩ := splitPreds_spec l (predsOf g l).length 0 t g [] (predsOf g l) hg hr hl.1 rfl rfl rfl
    obtain ⟨g', t', b1, b2, b3, b4, b5, b6, b7, b8⟩ := ih t1 g1 a2 a3
      (fun x hx => by
        obtain ⟨y, hy, e⟩ := hl.2 x hx
        obtain ⟨y1, hy1, e1, _⟩ := a6.old y hy
        exact ⟨y1, hy1, e1.trans e⟩) hd.2
    refine ⟨g', t', by rw [splitAll, a1, Option.bind_some]; exact b1, b2, b3, a4.trans b4, b5.trans a5, a6.trans b6 b2.nodup, ?_, ?_⟩
    · intro z hz hzl
      simp only [List.mem_cons, not_or] at hzl
      obtain ⟨z1, hz1, e1, _⟩ := a6.old z hz
      have := b7 z1 hz1 (e1 ▸ hzl.2)
      rw [e1] at this
      rw [this, ← predsOf_mem a2.nodup hz1, e1, a7 z hz hzl.1]
    · intro z hz hzl hlen m hm
      obtain ⟨z1, hz1, e1, e2, _⟩ := a6.old z hz
      by_cases e : z.name = l
      · have h1 := b7 z1 hz1 (by rw [e1, e]; exact hd.1)
        rw [e1] at h1
        rw [h1, ← predsOf_mem a2.nodup hz1, e1, e, a8 (by rw [← e, predsOf_mem hg.nodup hz]; exact hlen) m hm]
        simp only [List.not_mem_nil, false_or]
        rw [← e, predsOf_mem hg.nodup hz]
      · have hzl : z.name ∈ ls := by simpa [e] using hzl
        have h1 := b8 z1 hz1 (by rw [e1]; exact hzl) (by rw [e2]; exact hlen) m (Nat.lt_of_lt_of_le hm a6.le)
        rw [e1] at h1
        have hps : z1.preds = z.preds := by
          rw [← predsOf_mem a2.nodup hz1, e1, a7 z hz e]
        rw [h1, hps]
        rw [kept_congr (f := forks g1) (f' := forks g) z.preds]
        intro p hp
        obtain ⟨w, hw, rfl, _⟩ := (hg.edge z hz p).mp hp
        exact a6.forks hg.nodup a2.nodup hw

/-- Such edges remain just if two neighbouring predecessors of a block with several ones have several successors. -/
theorem critical_iff {t : Nat} {g g' : Graph} {t' : Nat} (hg : Good t g) (hr : ∀ x ∈ g, Reach g x.name)
    (h : splitAll (g.map (·.name)) t g = some (g', t')) :
    (∃ p b, Critical g' p b) ↔ ∃ b ∈ g, ∃ p q, Adjacent b.preds p q ∧ forks g p = true ∧ forks g q = true := by
  obtain ⟨g1, t1, a1, a2, a3, a4, a5, a6, a7, a8⟩ := splitAll_spec (g.map (·.name)) t g hg hr
    (fun l hl => by obtain ⟨y, hy, e⟩ := List.mem_map.mp hl; exact ⟨y, hy, e⟩) hg.nodup
  rw [h] at a1
  simp only [Option.some.injEq, Prod.mk.injEq] at a1
  obtain ⟨rfl, rfl⟩ := a1
  constructor
  · rintro ⟨p, b, hp, hb, hs, h1, h2⟩
    have hbp : p.name ∈ b.preds := (a2.edge b hb p.name).mpr ⟨p, hp, rfl, hs⟩
    rcases a6.new b hb with ⟨z, hz, ez⟩ | ⟨_, h, _⟩
    · rcases a6.new p hp with ⟨w, hw, ew⟩ | ⟨_, _, h⟩
      · obtain ⟨z1, hz1, e1, e2, _⟩ := a6.old z hz
        have := same_name a2.nodup hz1 hb (e1.trans ez)
        subst this
        have h3 := a8 z hz (List.mem_map_of_mem hz) (by omega) w.name (hg.fresh w hw)
        rw [← e1, predsOf_mem a2.nodup hz1, ew] at h3
        have hk := h3.mp hbp
        have hf : forks g p.name = true := by
          rw [← ew, ← a6.forks hg.nodup a2.nodup hw]
          unfold forks
          rw [ew, succsOf_mem a2.nodup hp]
          simpa using h1
        obtain ⟨a, b, h4, h5⟩ := (kept_adjacent z.preds).mp ⟨_, hk, hf⟩
        exact ⟨z, hz, a, b, h4, h5⟩
      · omega
    · omega
  · rintro ⟨z, hz, p, q, hpq, h1, h2⟩
    obtain ⟨m, hm, hf⟩ := (kept_adjacent z.preds).mpr ⟨p, q, hpq, h1, h2⟩
    have hlen : z.preds.length > 1 := by
      obtain ⟨u, v, e⟩ := hpq
      rw [e]
      simp
      omega
    obtain ⟨z1, hz1, e1, e2, _⟩ := a6.old z hz
    have hkm : ∀ (l : List Nat), ∀ m ∈ kept (forks g) l, m ∈ l := by
      intro l
      induction l using kept.induct (forks g) with
      | case1 => simp [kept]
      | case2 p hp => simp [kept, hp]
      | case3 p hp => simp [kept, hp]
      | case4 p q r hp ih =>
        intro m hm
        rw [kept, if_pos hp] at hm
        simp only [List.mem_cons] at hm ⊢
        rcases hm with rfl | hm
        · simp
        · exact .inr (.inr (ih m hm))
      | case5 p q r hp ih =>
        intro m hm
        rw [kept, if_neg hp, List.mem_cons] at hm
        rw [List.mem_cons]
        exact hm.imp_right (ih m)
    obtain ⟨w, hw, rfl, _⟩ := (hg.edge z hz m).mp (hkm _ _ hm)
    have h3 := (a8 z hz (List.mem_map_of_mem hz) hlen w.name (hg.fresh w hw)).mpr hm
    rw [← e1, predsOf_mem a2.nodup hz1] at h3
    obtain ⟨w1, hw1, e3, h4⟩ := (a2.edge z1 hz1 w.name).mp h3
    refine ⟨w1, z1, hw1, hz1, h4, ?_, by omega⟩
    have := a6.forks hg.nodup a2.nodup hw
    rw [hf] at this
    unfold forks at this
    rw [← e3, succsOf_mem a2.nodup hw1] at this
    simpa using this

end Nature.Cfg
