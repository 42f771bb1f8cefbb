/-
Removing the blocks that are not reached.
-/
import Verif.Cfg.Good
namespace Nature.Cfg

/-! ### The search -/

theorem visit_spec (g : Graph) : ∀ (ss q seen : List Nat), (∀ x ∈ q, x ∈ seen) → seen.Nodup →
    (∀ x ∈ (visit ss q seen).1, x ∈ (visit ss q seen).2) ∧ (visit ss q seen).2.Nodup ∧ (∀ x ∈ seen, x ∈ (visit ss q seen).2) ∧
    (∀ x ∈ ss, x ∈ (visit ss q seen).2) ∧ (∀ x ∈ q, x ∈ (visit ss q seen).1) ∧
    (∀ x ∈ (visit ss q seen).2, x ∈ seen ∨ x ∈ (visit ss q seen).1) ∧ (∀ x ∈ (visit ss q seen).2, x ∈ seen ∨ x ∈ ss) ∧
    (visit ss q seen).1.length + seen.length = q.length + (visit ss q seen).2.length := by
  intro ss
  induction ss with
  | nil => intro q seen h1 h2; exact ⟨h1, h2, fun _ h => h, by simp, fun _ h => h, fun _ h => .inl h, fun _ h => .inl h, rfl⟩
  | cons s ss ih =>
    intro q seen h1 h2
    unfold visit
    split
    · obtain ⟨a1, a2, a3, a4, a5, a6, a7, a8⟩ := ih q seen h1 h2
      refine ⟨a1, a2, a3, ?_, a5, a6, fun x hx => (a7 x hx).imp_right (List.mem_cons_of_mem _), a8⟩
      intro x hx
      rcases List.mem_cons.mp hx with rfl | hx
      · exact a3 _ (by assumption)
      · exact a4 x hx
    · next hs =>
      obtain ⟨a1, a2, a3, a4, a5, a6, a7, a8⟩ := ih (q ++ [s]) (seen ++ [s])
        (by simp only [List.mem_append, List.mem_singleton]; intro x hx; exact hx.imp_left (h1 x))
        (by rw [List.nodup_append]; exact ⟨h2, by simp, by simp only [List.mem_singleton]; rintro x hx y rfl rfl; exact hs hx⟩)
      refine ⟨a1, a2, fun x hx => a3 x (by simp [hx]), ?_, fun x hx => a5 x (by simp [hx]), ?_, ?_, by simp at a8; omega⟩
      · intro x hx
        rcases List.mem_cons.mp hx with rfl | hx
        · exact a3 _ (by simp)
        · exact a4 x hx
      · intro x hx
        rcases a6 x hx with h | h
        · simp only [List.mem_append, List.mem_singleton] at h
          rcases h with h | rfl
          · exact .inl h
          · exact .inr (a5 _ (by simp))
        · exact .inr h
      · intro x hx
        rcases a7 x hx with h | h
        · simp only [List.mem_append, List.mem_singleton] at h
          rcases h with h | rfl
          · exact .inl h
          · exact .inr (by simp)
        · exact .inr (List.mem_cons_of_mem _ h)

/-- A list without repetition inside another is not longer. -/
theorem nodup_length {a b : List Nat} (h : a.Nodup) (hs : ∀ x ∈ a, x ∈ b) : a.length ≤ b.length := by
  induction a generalizing b with
  | nil => simp
  | cons x a ih =>
    rw [List.nodup_cons] at h
    have hx : x ∈ b := hs x (by simp)
    have := ih (b := b.erase x) h.2 fun y hy => by
      have hne : y ≠ x := fun e => h.1 (e ▸ hy)
      exact (List.mem_erase_of_ne hne).mpr (hs y (by simp [hy]))
    rw [List.length_erase_of_mem hx] at this
    have : 0 < b.length := List.length_pos_of_mem hx
    simp only [List.length_cons]
    omega

/-- What holds during the search: everything seen is reached, and the successors of what has been taken from the queue have been
seen. -/
theorem search_spec {g : Graph} (hn : (g.map (·.name)).Nodup) (hc : ∀ b ∈ g, ∀ s ∈ b.succs, ∃ x ∈ g, x.name = s) :
    ∀ (n : Nat) (q seen : List Nat), (∀ x ∈ q, x ∈ seen) → seen.Nodup → (∀ x ∈ seen, Reach g x ∧ ∃ b ∈ g, b.name = x) →
    (∀ b ∈ g, b.name ∈ seen → b.name ∈ q ∨ ∀ s ∈ b.succs, s ∈ seen) → g.length + q.length < n + seen.length →
    ∃ r, search g n q seen = some r ∧ (∀ x ∈ r, Reach g x) ∧ (∀ x ∈ seen, x ∈ r) ∧
      ∀ b ∈ g, b.name ∈ r → ∀ s ∈ b.succs, s ∈ r := by
  intro n
  induction n with
  | zero =>
    intro q seen _ h2 h3 _ h5
    exfalso
    have : seen.length ≤ (g.map (·.name)).length := nodup_length h2 fun x hx => by
      obtain ⟨b, hb, e⟩ := (h3 x hx).2
      exact List.mem_map.mpr ⟨b, hb, e⟩
    rw [List.length_map] at this
    omega
  | succ n ih =>
    intro q seen h1 h2 h3 h4 h5
    cases q with
    | nil =>
      refine ⟨seen, rfl, fun x hx => (h3 x hx).1, fun _ h => h, fun b hb hs => ?_⟩
      rcases h4 b hb hs with h | h
      · simp at h
      · exact h
    | cons l q =>
      obtain ⟨hl, b, hb, e⟩ := h3 l (h1 l (by simp))
      subst e
      have hss : succsOf g b.name = b.succs := succsOf_mem hn hb
      obtain ⟨a1, a2, a3, a4, a5, a6, a7, a8⟩ := visit_spec g b.succs q seen (fun x hx => h1 x (by simp [hx])) h2
      rw [search, hss]
      obtain ⟨r, r1, r2, r3, r4⟩ := ih (visit b.succs q seen).1 (visit b.succs q seen).2 a1 a2
        (by
          intro x hx
          rcases a7 x hx with h | h
          · exact h3 x h
          · exact ⟨.succ hb hl h, hc b hb x h⟩)
        (by
          intro x hx hxs
          rcases a6 _ hxs with h | h
          · rcases h4 x hx h with h' | h'
            · rcases List.mem_cons.mp h' with h' | h'
              · right
                rw [same_name hn hx hb h']
                exact a4
              · exact .inl (a5 _ h')
            · exact .inr fun s hs => a3 s (h' s hs)
          · exact .inl h)
        (by simp only [List.length_cons] at h5; omega)
      exact ⟨r, r1, r2, fun x hx => r3 x (a3 x hx), r4⟩

/-! ### Detaching -/

/-- The graph while dead blocks are being detached, block by block: `dead` are those for which it has been done. -/
structure Det (live : Nat → Prop) (dead : List Nat) (x y : Block) : Prop where
  name : y.name = x.name
  ops : y.ops = x.ops
  nsuccs : y.succs.Nodup
  npreds : y.preds.Nodup
  lsuccs : ∀ s, live s → (s ∈ y.succs ↔ s ∈ x.succs)
  succs : live x.name → y.succs = x.succs
  preds : live x.name → y.preds = x.preds.filter fun p => !dead.contains p

theorem nodup_erase {l : List Nat} {a : Nat} (h : l.Nodup) : (l.erase a).Nodup := h.sublist List.erase_sublist

theorem erase_filter {l : List Nat} {a : Nat} (h : l.Nodup) : l.erase a = l.filter fun x => x != a := h.erase_eq_filter a

/-- Detaching one block. -/
theorem detach_map {live : Nat → Prop} {g : Graph} (hg : ∀ x ∈ g, live x.name → ∀ s ∈ x.succs, live s)
    (he : ∀ b ∈ g, ∀ p, p ∈ b.preds ↔ ∃ x ∈ g, x.name = p ∧ b.name ∈ x.succs) {dead : List Nat}
    {f : Block → Block} (hf : ∀ x ∈ g, Det live dead x (f x)) (hn : (g.map (·.name)).Nodup) {b : Block} (hb : b ∈ g)
    (hl : ¬ live b.name) : ∃ f', detachSuccs (detachPreds (g.map f) b.name) b.name = g.map f' ∧
      ∀ x ∈ g, Det live (b.name :: dead) x (f' x) := by
  have hnm : (g.map f).map (·.name) = g.map (·.name) := by
    rw [List.map_map]; exact List.map_congr_left fun x hx => (hf x hx).name
  have hp : predsOf (g.map f) b.name = (f b).preds := by
    have := predsOf_mem (g := g.map f) (hnm ▸ hn) (List.mem_map_of_mem hb)
    rwa [(hf b hb).name] at this
  obtain ⟨f1, hf1, hd1⟩ : ∃ f1 : Block → Block, detachPreds (g.map f) b.name = g.map f1 ∧ ∀ x ∈ g, Det live dead x (f1 x) := by
    refine ⟨fun x => if (f x).name ∈ (f b).preds then { f x with succs := (f x).succs.erase b.name } else f x, ?_, ?_⟩
    · unfold detachPreds
      rw [hp, foldl_change (f := fun x => { x with succs := x.succs.erase b.name }) (fun _ => rfl) _ (hf b hb).npreds, List.map_map]
      rfl
    · intro x hx
      have d := hf x hx
      dsimp only
      split
      · refine ⟨d.name, d.ops, nodup_erase d.nsuccs, d.npreds, ?_, ?_, d.preds⟩
        · intro s hs
          rw [← d.lsuccs s hs]
          exact List.mem_erase_of_ne fun e => hl (e ▸ hs)
        · intro hx'
          show (f x).succs.erase b.name = _
          rw [d.succs hx']
          exact List.erase_of_not_mem fun h => hl (hg x hx hx' _ h)
      · exact d
  have hnm1 : (g.map f1).map (·.name) = g.map (·.name) := by
    rw [List.map_map]; exact List.map_congr_left fun x hx => (hd1 x hx).name
  have hs : succsOf (g.map f1) b.name = (f1 b).succs := by
    have := succsOf_mem (g := g.map f1) (hnm1 ▸ hn) (List.mem_map_of_mem hb)
    rwa [(hd1 b hb).name] at this
  refine ⟨fun x => if (f1 x).name ∈ (f1 b).succs then { f1 x with preds := (f1 x).preds.erase b.name } else f1 x, ?_, ?_⟩
  · unfold detachSuccs
    rw [hf1, hs, foldl_change (f := fun x => { x with preds := x.preds.erase b.name }) (fun _ => rfl) _ (hd1 b hb).nsuccs, List.map_map]
    rfl
  · intro x hx
    have d := hd1 x hx
    have hflt : ∀ l : List Nat, (l.filter fun p => !dead.contains p).filter (fun p => p != b.name) =
        l.filter fun p => !(b.name :: dead).contains p := by
      intro l
      rw [List.filter_filter]
      refine List.filter_congr fun p _ => ?_
      by_cases h1 : p = b.name <;> by_cases h2 : p ∈ dead <;> simp [h1, h2]
    dsimp only
    split
    · refine ⟨d.name, d.ops, d.nsuccs, nodup_erase d.npreds, d.lsuccs, d.succs, ?_⟩
      intro hx'
      show (f1 x).preds.erase b.name = _
      rw [erase_filter d.npreds, d.preds hx', hflt]
    · next hx1 =>
      refine ⟨d.name, d.ops, d.nsuccs, d.npreds, d.lsuccs, d.succs, ?_⟩
      intro hx'
      rw [← hflt, ← d.preds hx', ← erase_filter d.npreds]
      refine (List.erase_of_not_mem fun h => ?_).symm
      rw [d.preds hx'] at h
      obtain ⟨y, hy, e, h'⟩ := (he x hx b.name).mp (List.mem_filter.mp h).1
      rw [same_name hn hy hb e] at h'
      refine hx1 ?_
      rw [d.name]
      exact ((hd1 b hb).lsuccs _ hx').mpr h'

theorem detach_all {live : Nat → Prop} {g : Graph} (hg : ∀ x ∈ g, live x.name → ∀ s ∈ x.succs, live s)
    (he : ∀ b ∈ g, ∀ p, p ∈ b.preds ↔ ∃ x ∈ g, x.name = p ∧ b.name ∈ x.succs) (hn : (g.map (·.name)).Nodup) :
    ∀ (ls dead : List Nat) (f : Block → Block), (∀ l ∈ ls, ¬ live l ∧ ∃ b ∈ g, b.name = l) → (∀ x ∈ g, Det live dead x (f x)) →
    ∃ f', ls.foldl (fun g l => detachSuccs (detachPreds g l) l) (g.map f) = g.map f' ∧
      ∀ x ∈ g, Det live (ls.reverse ++ dead) x (f' x) := by
  intro ls
  induction ls with
  | nil => intro dead f _ hf; exact ⟨f, rfl, hf⟩
  | cons l ls ih =>
    intro dead f hl hf
    rw [List.forall_mem_cons] at hl
    obtain ⟨⟨h1, b, hb, rfl⟩, h2⟩ := hl
    obtain ⟨f1, e1, d1⟩ := detach_map hg he hf hn hb h1
    obtain ⟨f2, e2, d2⟩ := ih (b.name :: dead) f1 h2 d1
    refine ⟨f2, by rw [List.foldl_cons, e1, e2], fun x hx => ?_⟩
    have := d2 x hx
    simpa using this

/-- Pruning leaves the blocks that are reached, and removes the others from their predecessors. -/
theorem prune_eq {t : Nat} {g : Graph} (hg : Good t g) (hne : g ≠ []) : ∃ seen : List Nat, (∀ b ∈ g, b.name ∈ seen ↔ Reach g b.name) ∧
    (∀ x r, g = x :: r → x.name ∈ seen) ∧ (∀ b ∈ g, b.name ∈ seen → ∀ s ∈ b.succs, s ∈ seen) ∧
    prune g = some ((g.filter fun b => b.name ∈ seen).map fun b => { b with preds := b.preds.filter fun p => p ∈ seen }) := by
  cases g with
  | nil => exact absurd rfl hne
  | cons e r =>
    obtain ⟨seen, h1, h2, h3, h4⟩ := search_spec hg.nodup hg.closed ((e :: r).length + 1) [e.name] [e.name] (by simp) (by simp)
      (by simp only [List.mem_singleton]; rintro x rfl; exact ⟨.entry rfl, e, by simp, rfl⟩)
      (by intro b _ hb; exact .inl hb) (by simp)
    have hreach : ∀ l, Reach (e :: r) l → l ∈ seen := by
      intro l hl
      induction hl with
      | entry h =>
        obtain ⟨rfl, _⟩ := List.cons.inj h
        exact h3 _ (by simp)
      | succ hb _ hs ih => exact h4 _ hb ih _ hs
    refine ⟨seen, fun b _ => ⟨h2 _, hreach _⟩, ?_, h4, ?_⟩
    · intro x r' h
      obtain ⟨rfl, _⟩ := List.cons.inj h
      exact h3 _ (by simp)
    · obtain ⟨f, hf, hd⟩ := detach_all (live := fun l => l ∈ seen) (g := e :: r) h4 hg.edge hg.nodup
        (((e :: r).map (·.name)).filter fun l => ¬ l ∈ seen) [] id
        (by
          intro l hl
          obtain ⟨a, b⟩ := List.mem_filter.mp hl
          obtain ⟨x, hx, e⟩ := List.mem_map.mp a
          exact ⟨by simpa using b, x, hx, e⟩)
        (fun x hx => ⟨rfl, rfl, (hg.shape x hx).nsuccs, hg.npreds x hx, fun _ _ => Iff.rfl, fun _ => rfl, fun _ => (List.filter_eq_self.mpr fun _ _ => by simp).symm⟩)
      rw [prune, h1, Option.map_some]
      simp only [List.map_id] at hf
      rw [hf]
      congr 1
      rw [List.filter_map]
      have hfe : (e :: r).filter ((fun b => decide (b.name ∈ seen)) ∘ f) = (e :: r).filter fun b => decide (b.name ∈ seen) :=
        List.filter_congr fun x hx => by simp only [Function.comp, (hd x hx).name]
      rw [hfe]
      refine List.map_congr_left fun x hx => ?_
      obtain ⟨hx1, hx2⟩ := List.mem_filter.mp hx
      have d := hd x hx1
      have hx2 : x.name ∈ seen := by simpa using hx2
      have hp : (f x).preds = x.preds.filter fun p => p ∈ seen := by
        rw [d.preds hx2]
        refine List.filter_congr fun p hp => ?_
        obtain ⟨y, hy, e, _⟩ := (hg.edge x hx1 p).mp hp
        rw [Bool.eq_iff_iff]
        simp only [List.append_nil, Bool.not_eq_true', List.contains_eq_mem, decide_eq_false_iff_not, decide_eq_true_eq]
        simp only [List.mem_reverse, List.mem_filter, List.mem_map, not_and, decide_eq_true_eq, Decidable.not_not]
        exact ⟨fun h => h ⟨y, hy, e⟩, fun h _ => h⟩
      have : f x = ⟨(f x).name, (f x).ops, (f x).preds, (f x).succs⟩ := rfl
      rw [this, d.name, d.ops, d.succs hx2, hp]

/-- The pruned graph is well formed. -/
theorem prune_good {t : Nat} {g g' : Graph} (hg : Good t g) (h : prune g = some g') :
    Good t g' ∧ (∀ b ∈ g', Reach g' b.name) ∧ Same (graphJumps g) (entryOps g) (graphJumps g') (entryOps g') ∧
      g'.head?.map (·.name) = g.head?.map (·.name) ∧ ∀ b' ∈ g', ∃ b ∈ g, b'.name = b.name ∧ ∀ p ∈ b'.preds, p ∈ b.preds := by
  have hne : g ≠ [] := by rintro rfl; simp [prune] at h
  obtain ⟨seen, h1, h2, h3, h4⟩ := prune_eq hg hne
  rw [h4] at h
  obtain rfl := Option.some.inj h
  have hmem : ∀ x', x' ∈ ((g.filter fun b => b.name ∈ seen).map fun b => { b with preds := b.preds.filter fun p => p ∈ seen }) ↔
      ∃ x ∈ g, x.name ∈ seen ∧ x' = { x with preds := x.preds.filter fun p => p ∈ seen } := by
    intro x'
    simp only [List.mem_map, List.mem_filter, decide_eq_true_eq]
    exact ⟨fun ⟨x, ⟨a, b⟩, c⟩ => ⟨x, a, b, c.symm⟩, fun ⟨x, a, b, c⟩ => ⟨x, ⟨a, b⟩, c.symm⟩⟩
  generalize hG : ((g.filter fun b => b.name ∈ seen).map fun b => { b with preds := b.preds.filter fun p => p ∈ seen }) = g' at hmem
  have hgood : Good t g' := by
    refine ⟨?_, ?_, ?_, ?_, ?_, ?_⟩
    · rw [← hG, List.map_map]
      exact hg.nodup.sublist (List.filter_sublist.map _)
    · intro b hb
      obtain ⟨x, hx, _, rfl⟩ := (hmem b).mp hb
      exact (hg.shape x hx).congr _
    · intro b hb s hs
      obtain ⟨x, hx, hx', rfl⟩ := (hmem b).mp hb
      obtain ⟨y, hy, rfl⟩ := hg.closed x hx s hs
      exact ⟨_, (hmem _).mpr ⟨y, hy, h3 x hx hx' _ hs, rfl⟩, rfl⟩
    · intro b hb p
      obtain ⟨x, hx, hx', rfl⟩ := (hmem b).mp hb
      simp only [List.mem_filter, decide_eq_true_eq]
      rw [hg.edge x hx p]
      constructor
      · rintro ⟨⟨y, hy, rfl, hy'⟩, hp⟩
        exact ⟨_, (hmem _).mpr ⟨y, hy, hp, rfl⟩, rfl, hy'⟩
      · rintro ⟨y', hy', rfl, hs⟩
        obtain ⟨y, hy, hy1, rfl⟩ := (hmem _).mp hy'
        exact ⟨⟨y, hy, rfl, hs⟩, hy1⟩
    · intro b hb
      obtain ⟨x, hx, hx', rfl⟩ := (hmem b).mp hb
      exact (hg.npreds x hx).sublist List.filter_sublist
    · intro b hb
      obtain ⟨x, hx, hx', rfl⟩ := (hmem b).mp hb
      exact hg.fresh x hx
  obtain ⟨e, r, rfl⟩ : ∃ e r, g = e :: r := by cases g with | nil => exact absurd rfl hne | cons e r => exact ⟨e, r, rfl⟩
  have he := h2 e r rfl
  obtain ⟨r', hr'⟩ : ∃ r', g' = { e with preds := e.preds.filter fun p => p ∈ seen } :: r' := by
    rw [← hG, List.filter_cons]
    simp only [he, decide_true, if_true, List.map_cons]
    exact ⟨_, rfl⟩
  refine ⟨hgood, ?_, ?_, ?_, ?_⟩
  · have key : ∀ l, Reach (e :: r) l → Reach g' l := by
      intro l hl
      induction hl with
      | entry h =>
        obtain ⟨rfl, _⟩ := List.cons.inj h
        have h0 := Reach.entry hr'
        exact h0
      | @succ b s hb hb' hs ih => exact .succ ((hmem _).mpr ⟨b, hb, (h1 b hb).mpr hb', rfl⟩) ih hs
    intro b hb
    obtain ⟨x, hx, hx', rfl⟩ := (hmem b).mp hb
    exact key _ ((h1 x hx).mp hx')
  · have hT : Table (graphJumps (e :: r)) (graphJumps g') (fun a b => a = b ∧ a ∈ seen ∧ ∃ x ∈ e :: r, x.name = a) := by
      rintro l _ ⟨rfl, hl, x, hx, rfl⟩
      refine ⟨x.ops, x.ops, jumps_mem hg.nodup hx, ?_, rep_refl ((hg.shape x hx).jumps fun s h => ⟨rfl, h3 x hx hl s h, hg.closed x hx s h⟩)⟩
      have h0 := jumps_mem hgood.nodup ((hmem { x with preds := x.preds.filter fun p => p ∈ seen }).mpr ⟨x, hx, hl, rfl⟩)
      exact h0
    rw [hr'] at hT ⊢
    refine same_of hT ?_
    exact rep_refl ((hg.shape e (by simp)).jumps fun s h => ⟨rfl, h3 e (by simp) he s h, hg.closed e (by simp) s h⟩)
  · rw [hr']; rfl
  · intro b hb
    obtain ⟨x, hx, hx', rfl⟩ := (hmem b).mp hb
    exact ⟨x, hx, rfl, fun p hp => (List.mem_filter.mp hp).1⟩

end Nature.Cfg
