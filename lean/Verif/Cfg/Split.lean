/-
Splitting edges.
-/
import Verif.Cfg.Merge
namespace Nature.Cfg

/-- What becomes of a block when `n` is put between `p` and `b`. -/
def splitBlock (p b n : Label) (x : Block) : Block :=
  ⟨x.name, if x.name = p then (retarget b n x.ops).getD [] else x.ops, if x.name = b then x.preds.erase p ++ [n] else x.preds,
    if x.name = p then x.succs.erase b ++ [n] else x.succs⟩

/-- The same without the operations. -/
def linkBlock (p b n : Label) (z : Block) : Block :=
  ⟨z.name, z.ops, if z.name = b then z.preds.erase p ++ [n] else z.preds, if z.name = p then z.succs.erase b ++ [n] else z.succs⟩

theorem change_map (g : Graph) (l : Nat) (f : Block → Block) : change g l f = g.map fun x => if x.name = l then f x else x := rfl

theorem retarget_two {n l l' c : Nat} {mid : List Ins} (b m : Nat) :
    retarget b m (.label n :: (mid ++ [.br c l', .bal l])) =
      some (.label n :: (mid ++ [.br c (if l' = b then m else l'), .bal (if l = b then m else l)])) := by
  simp [retarget]

/-- The closed form. -/
theorem splitEdge_eq {t : Nat} {g : Graph} (hg : Good t g) {x y : Block} (hx : x ∈ g) (hy : y ∈ g) (hs : y.name ∈ x.succs)
    (h2 : 1 < x.succs.length) :
    splitEdge g x.name y.name t = some (g.map (splitBlock x.name y.name t) ++ [(⟨t, [.label t, .bal y.name], [x.name], [y.name]⟩ : Block)]) := by
  have hxt := hg.fresh x hx
  have hyt := hg.fresh y hy
  have hpx : x.name ∈ y.preds := (hg.edge y hy x.name).mpr ⟨x, hx, rfl, hs⟩
  unfold splitEdge
  simp only [change_map, List.map_append, List.map_map, List.map_cons, List.map_nil]
  have e1 : t ≠ x.name := by omega
  have e2 : t ≠ y.name := by omega
  simp only [e1, e2, if_false]
  -- the changed blocks before the branches are changed
  have key : ∀ z ∈ g, ((fun x_1 : Block => if x_1.name = y.name then { name := x_1.name, ops := x_1.ops, preds := x_1.preds.erase x.name, succs := x_1.succs } else x_1) ∘
      (fun x_1 : Block => if x_1.name = x.name then { name := x_1.name, ops := x_1.ops, preds := x_1.preds, succs := x_1.succs.erase y.name } else x_1) ∘
      (fun x_1 : Block => if x_1.name = x.name then { name := x_1.name, ops := x_1.ops, preds := x_1.preds, succs := x_1.succs ++ [t] } else x_1) ∘
      fun x : Block => if x.name = y.name then { name := x.name, ops := x.ops, preds := x.preds ++ [t], succs := x.succs } else x) z =
      linkBlock x.name y.name t z := by
    intro z hz
    have hzy : z.name = y.name → x.name ∈ z.preds := fun e => by rw [same_name hg.nodup hz hy e]; exact hpx
    have hzx : z.name = x.name → y.name ∈ z.succs := fun e => by rw [same_name hg.nodup hz hx e]; exact hs
    simp only [Function.comp, linkBlock]
    by_cases h1 : z.name = x.name <;> by_cases h2 : z.name = y.name
    · simp only [h1, h2, if_true, if_false]
      rw [h1] at h2
      simp only [h2, if_true]
      rw [List.erase_append_left _ (h2 ▸ hzy (h1.trans h2)), List.erase_append_left _ (hzx h1)]
    · rw [h1] at h2
      simp only [h1, h2, if_true, if_false]
      rw [List.erase_append_left _ (hzx h1)]
    · have h3 : ¬ y.name = x.name := fun e => h1 (h2.trans e)
      simp only [h2, h3, if_true, if_false]
      rw [List.erase_append_left _ (hzy h2)]
    · simp only [h1, h2, if_false]
  rw [List.map_congr_left key]
  have hops : opsOf (g.map (linkBlock x.name y.name t) ++ [(⟨t, [.label t, .bal y.name], [x.name], [y.name]⟩ : Block)]) x.name = x.ops := by
    unfold opsOf
    rw [List.find?_append]
    have hd : ((g.map (linkBlock x.name y.name t)).map (·.name)).Nodup := by
      rw [List.map_map]; exact hg.nodup
    have := find_mem hd (List.mem_map_of_mem hx)
    rw [show (linkBlock x.name y.name t x).name = x.name from rfl] at this
    rw [this]
    rfl
  rw [hops]
  obtain ⟨ops, hret⟩ : ∃ ops, retarget y.name t x.ops = some ops := by
    have := hg.shape x hx
    cases this with
    | stop h => simp at h2
    | one h => simp at h2
    | two h a e => exact ⟨_, retarget_two _ _⟩
  rw [hret, Option.map_some]
  congr 2
  refine List.map_congr_left fun z hz => ?_
  rw [Function.comp_apply, key z hz]
  simp only [splitBlock, linkBlock]
  by_cases h1 : z.name = x.name
  · simp only [h1, if_true]
    rw [same_name hg.nodup hz hx h1, hret]
    rfl
  · simp only [h1, if_false]

/-- Splitting an edge. -/
theorem splitEdge_good {t : Nat} {g : Graph} (hg : Good t g) (hr : ∀ b ∈ g, Reach g b.name) {x y : Block} (hx : x ∈ g) (hy : y ∈ g)
    (hs : y.name ∈ x.succs) (h2 : 1 < x.succs.length) {g' : Graph} (h : splitEdge g x.name y.name t = some g') :
    Good (t + 1) g' ∧ (∀ b ∈ g', Reach g' b.name) ∧ Same (graphJumps g) (entryOps g) (graphJumps g') (entryOps g') ∧
    g'.head?.map (·.name) = g.head?.map (·.name) := by
  rw [splitEdge_eq hg hx hy hs h2] at h
  obtain rfl := Option.some.inj h
  have hxt := hg.fresh x hx
  have hyt := hg.fresh y hy
  have hpx : x.name ∈ y.preds := (hg.edge y hy x.name).mpr ⟨x, hx, rfl, hs⟩
  have hmem : ∀ z', z' ∈ g.map (splitBlock x.name y.name t) ++ [(⟨t, [.label t, .bal y.name], [x.name], [y.name]⟩ : Block)] ↔
      (∃ z ∈ g, z' = splitBlock x.name y.name t z) ∨ z' = ⟨t, [.label t, .bal y.name], [x.name], [y.name]⟩ := by
    intro z'
    simp only [List.mem_append, List.mem_map, List.mem_singleton]
    exact ⟨fun h => h.imp_left fun ⟨z, a, b⟩ => ⟨z, a, b.symm⟩, fun h => h.imp_left fun ⟨z, a, b⟩ => ⟨z, a, b.symm⟩⟩
  have hnd : ((g.map (splitBlock x.name y.name t) ++ [(⟨t, [.label t, .bal y.name], [x.name], [y.name]⟩ : Block)]).map (·.name)).Nodup := by
    rw [List.map_append, List.map_map, List.nodup_append]
    refine ⟨hg.nodup, by simp, ?_⟩
    intro a ha b hb
    obtain ⟨z, hz, rfl⟩ := List.mem_map.mp ha
    simp only [List.map_cons, List.map_nil, List.mem_singleton] at hb
    rw [hb]
    have := hg.fresh z hz
    show z.name ≠ t
    omega
  have hhead : ∃ e r r', g = e :: r ∧ g.map (splitBlock x.name y.name t) ++ [(⟨t, [.label t, .bal y.name], [x.name], [y.name]⟩ : Block)] =
      splitBlock x.name y.name t e :: r' := by
    cases g with
    | nil => simp at hx
    | cons e r => exact ⟨e, r, _, rfl, rfl⟩
  generalize hG : g.map (splitBlock x.name y.name t) ++ [(⟨t, [.label t, .bal y.name], [x.name], [y.name]⟩ : Block)] = g' at hmem hnd hhead
  have hnew := (hmem _).mpr (.inr rfl)
  have hold : ∀ z ∈ g, splitBlock x.name y.name t z ∈ g' := fun z hz => (hmem _).mpr (.inl ⟨z, hz, rfl⟩)
  have hso : ∀ z ∈ g, z ≠ x → (splitBlock x.name y.name t z).succs = z.succs ∧ (splitBlock x.name y.name t z).ops = z.ops := by
    intro z hz h
    have : z.name ≠ x.name := fun e => h (same_name hg.nodup hz hx e)
    simp [splitBlock, this]
  have hsx : (splitBlock x.name y.name t x).succs = x.succs.erase y.name ++ [t] := by simp [splitBlock]
  have hss : ∀ z ∈ g, ∀ s, s < t → s ∈ (splitBlock x.name y.name t z).succs → s ∈ z.succs := by
    intro z hz s hst h
    by_cases e : z = x
    · subst e
      rw [hsx, List.mem_append, List.mem_singleton] at h
      rcases h with h | rfl
      · exact List.mem_of_mem_erase h
      · omega
    · rwa [(hso z hz e).1] at h
  -- the form of `x`
  have hshx : Shape (splitBlock x.name y.name t x) ∧ ∃ l l' c mid, x.ops = .label x.name :: (mid ++ [.br c l', .bal l]) ∧
      (splitBlock x.name y.name t x).ops = .label x.name :: (mid ++ [.br c (if l' = y.name then t else l'), .bal (if l = y.name then t else l)]) ∧
      (∀ i ∈ mid, ∃ c, i = .op c) ∧ l ∈ x.succs ∧ l' ∈ x.succs := by
    have hsh := hg.shape x hx
    have hcl : ∀ s ∈ x.succs, s < t := fun s h => by
      obtain ⟨z, hz, rfl⟩ := hg.closed x hx s h
      exact hg.fresh z hz
    have hop : (splitBlock x.name y.name t x).ops = (retarget y.name t x.ops).getD [] := by simp [splitBlock]
    have hb : splitBlock x.name y.name t x = ⟨x.name, (splitBlock x.name y.name t x).ops, (splitBlock x.name y.name t x).preds, (splitBlock x.name y.name t x).succs⟩ := rfl
    rw [hb, hsx, hop]
    generalize (splitBlock x.name y.name t x).preds = ps
    cases hsh with
    | stop h => simp at h2
    | one h => simp at h2
    | @two n l l' c mid ps' ss hm a e =>
      have hl : l ∈ ss := by rcases e with rfl | rfl <;> simp
      have hl' : l' ∈ ss := by rcases e with rfl | rfl <;> simp
      have := hcl l hl
      have := hcl l' hl'
      simp only [retarget_two, Option.getD_some]
      refine ⟨.two hm ?_ ?_, l, l', c, mid, rfl, rfl, hm, hl, hl'⟩
      · split <;> split <;> omega
      · simp only at hs
        rcases e with rfl | rfl
        · simp only [List.mem_cons, List.not_mem_nil, or_false] at hs
          rcases hs with e | e
          · rw [e]
            simp [Ne.symm a]
          · rw [e]
            simp [a]
        · simp only [List.mem_cons, List.not_mem_nil, or_false] at hs
          rcases hs with e | e
          · rw [e]
            simp [a]
          · rw [e]
            simp [Ne.symm a]
  have hgood : Good (t + 1) g' := by
    refine ⟨hnd, ?_, ?_, ?_, ?_, ?_⟩
    · intro z' hz'
      rcases (hmem _).mp hz' with ⟨z, hz, rfl⟩ | rfl
      · by_cases e : z = x
        · subst e; exact hshx.1
        · have hb : splitBlock x.name y.name t z = { z with preds := (splitBlock x.name y.name t z).preds } := by
            have := hso z hz e
            have hb : splitBlock x.name y.name t z = ⟨z.name, (splitBlock x.name y.name t z).ops, (splitBlock x.name y.name t z).preds, (splitBlock x.name y.name t z).succs⟩ := rfl
            rw [this.1, this.2] at hb
            exact hb
          rw [hb]
          exact (hg.shape z hz).congr _
      · exact Shape.one (n := t) (mid := []) (by simp)
    · intro z' hz' s hs'
      rcases (hmem _).mp hz' with ⟨z, hz, rfl⟩ | rfl
      · by_cases e : z = x
        · subst e
          rw [hsx, List.mem_append, List.mem_singleton] at hs'
          rcases hs' with h | rfl
          · obtain ⟨w, hw, rfl⟩ := hg.closed z hz s (List.mem_of_mem_erase h)
            exact ⟨_, hold w hw, rfl⟩
          · exact ⟨_, hnew, rfl⟩
        · rw [(hso z hz e).1] at hs'
          obtain ⟨w, hw, rfl⟩ := hg.closed z hz s hs'
          exact ⟨_, hold w hw, rfl⟩
      · simp only [List.mem_singleton] at hs'
        subst hs'
        exact ⟨_, hold y hy, rfl⟩
    · intro z' hz' p
      rcases (hmem _).mp hz' with ⟨z, hz, rfl⟩ | rfl
      · have hzt := hg.fresh z hz
        have hzs : ∀ w ∈ g, (z.name ∈ (splitBlock x.name y.name t w).succs ↔ z.name ∈ w.succs ∧ ¬ (w = x ∧ z = y)) := by
          intro w hw
          by_cases e : w = x
          · subst e
            rw [hsx, List.mem_append, List.mem_singleton]
            by_cases e' : z = y
            · subst e'
              have h1 : z.name ∉ w.succs.erase z.name := (hg.shape w hw).nsuccs.not_mem_erase
              simp only [h1, false_or, and_self, not_true, and_false, iff_false]
              omega
            · have e2 : z.name ≠ y.name := fun e => e' (same_name hg.nodup hz hy e)
              rw [List.mem_erase_of_ne e2]
              have : z.name ≠ t := by omega
              simp [this, e']
          · rw [(hso w hw e).1]
            simp [e]
        have hzp : p ∈ (splitBlock x.name y.name t z).preds ↔ (p ∈ z.preds ∧ ¬ (p = x.name ∧ z = y)) ∨ (p = t ∧ z = y) := by
          by_cases e' : z = y
          · subst e'
            simp only [splitBlock, if_true, List.mem_append, List.mem_singleton, and_true]
            rw [(hg.npreds z hz).mem_erase_iff]
            exact ⟨fun h => h.imp_left fun ⟨a, b⟩ => ⟨b, a⟩, fun h => h.imp_left fun ⟨a, b⟩ => ⟨b, a⟩⟩
          · have e2 : z.name ≠ y.name := fun e => e' (same_name hg.nodup hz hy e)
            simp [splitBlock, e', e2]
        show p ∈ (splitBlock x.name y.name t z).preds ↔ ∃ w ∈ g', w.name = p ∧ z.name ∈ w.succs
        rw [hzp, hg.edge z hz p]
        constructor
        · rintro (⟨⟨w, hw, rfl, h⟩, h'⟩ | ⟨rfl, rfl⟩)
          · exact ⟨_, hold w hw, rfl, (hzs w hw).mpr ⟨h, fun ⟨a, b⟩ => h' ⟨congrArg Block.name a, b⟩⟩⟩
          · exact ⟨_, hnew, rfl, by simp⟩
        · rintro ⟨w', hw', rfl, h⟩
          rcases (hmem _).mp hw' with ⟨w, hw, rfl⟩ | rfl
          · obtain ⟨h1, h2⟩ := (hzs w hw).mp h
            exact .inl ⟨⟨w, hw, rfl, h1⟩, fun ⟨a, b⟩ => h2 ⟨same_name hg.nodup hw hx a, b⟩⟩
          · simp only [List.mem_singleton] at h
            exact .inr ⟨rfl, same_name hg.nodup hz hy h⟩
      · simp only [List.mem_singleton]
        constructor
        · rintro rfl
          exact ⟨_, hold x hx, rfl, by rw [hsx]; simp⟩
        · rintro ⟨w', hw', rfl, h⟩
          rcases (hmem _).mp hw' with ⟨w, hw, rfl⟩ | rfl
          · by_cases e : w = x
            · subst e; rfl
            · rw [(hso w hw e).1] at h
              obtain ⟨v, hv, e⟩ := hg.closed w hw t h
              have := hg.fresh v hv
              omega
          · simp only [List.mem_singleton] at h
            omega
    · intro z' hz'
      rcases (hmem _).mp hz' with ⟨z, hz, rfl⟩ | rfl
      · unfold splitBlock
        dsimp only
        split
        · rw [List.nodup_append]
          refine ⟨nodup_erase (hg.npreds z hz), by simp, ?_⟩
          intro a ha b hb
          rw [List.mem_singleton] at hb
          subst hb
          obtain ⟨v, hv, rfl, _⟩ := (hg.edge z hz a).mp (List.mem_of_mem_erase ha)
          have := hg.fresh v hv
          omega
        · exact hg.npreds z hz
      · simp
    · intro z' hz'
      rcases (hmem _).mp hz' with ⟨z, hz, rfl⟩ | rfl
      · have := hg.fresh z hz
        show z.name < t + 1
        omega
      · show t < t + 1
        omega
  obtain ⟨e, r, r', hge, hge'⟩ := hhead
  refine ⟨hgood, ?_, ?_, by rw [hge, hge']; rfl⟩
  · have key : ∀ l, Reach g l → Reach g' l := by
      intro l hl
      induction hl with
      | entry h =>
        rw [hge] at h
        obtain ⟨rfl, _⟩ := List.cons.inj h
        have h0 := Reach.entry hge'
        exact h0
      | @succ z s hz _ hs' ih =>
        by_cases e : z = x
        · subst e
          have ih : Reach g' (splitBlock z.name y.name t z).name := ih
          by_cases e' : s = y.name
          · subst e'
            have h1 : Reach g' t := .succ (hold z hz) ih (by rw [hsx]; simp)
            have h2 : Reach g' (⟨t, [.label t, .bal y.name], [z.name], [y.name]⟩ : Block).name := h1
            exact .succ hnew h2 (by simp)
          · refine .succ (hold z hz) ih ?_
            rw [hsx, List.mem_append, List.mem_erase_of_ne e']
            exact .inl hs'
        · have ih : Reach g' (splitBlock x.name y.name t z).name := ih
          exact .succ (hold z hz) ih (by rw [(hso z hz e).1]; exact hs')
    intro z' hz'
    rcases (hmem _).mp hz' with ⟨z, hz, rfl⟩ | rfl
    · exact key _ (hr z hz)
    · have ih : Reach g' (splitBlock x.name y.name t x).name := key _ (hr x hx)
      exact .succ (hold x hx) ih (by rw [hsx]; simp)
  · have hid : ∀ z ∈ g, ∀ s ∈ z.succs, (s = s ∧ ∃ w ∈ g, w.name = s) ∨ (s = y.name ∧ s = t) := fun z hz s h => .inl ⟨rfl, hg.closed z hz s h⟩
    have hrep : ∀ z ∈ g, Rep (graphJumps g) (graphJumps g') (fun a b => (a = b ∧ ∃ w ∈ g, w.name = a) ∨ (a = y.name ∧ b = t)) z.ops
        (splitBlock x.name y.name t z).ops := by
      intro z hz
      by_cases h : z = x
      · subst h
        obtain ⟨_, l, l', c, mid, o1, o2, o3, o4, o5⟩ := hshx
        rw [o1, o2]
        refine .labelL (.labelR (rep_append (.br ?_ (.bal ?_)) _ o3))
        · split
          · next e => exact .inr ⟨e, rfl⟩
          · exact .inl ⟨rfl, hg.closed z hz l' o5⟩
        · split
          · next e => exact .inr ⟨e, rfl⟩
          · exact .inl ⟨rfl, hg.closed z hz l o4⟩
      · rw [(hso z hz h).2]
        exact rep_refl ((hg.shape z hz).jumps fun s hs => .inl ⟨rfl, hg.closed z hz s hs⟩)
    have hT : Table (graphJumps g) (graphJumps g') (fun a b => (a = b ∧ ∃ w ∈ g, w.name = a) ∨ (a = y.name ∧ b = t)) := by
      rintro l l' (⟨rfl, z, hz, rfl⟩ | ⟨rfl, rfl⟩)
      · refine ⟨z.ops, (splitBlock x.name y.name t z).ops, jumps_mem hg.nodup hz, ?_, hrep z hz⟩
        have h0 := jumps_mem hgood.nodup (hold z hz)
        exact h0
      · refine ⟨y.ops, [.label l', .bal y.name], jumps_mem hg.nodup hy, ?_, ?_⟩
        · have h0 := jumps_mem hgood.nodup hnew
          exact h0
        · refine .labelR (.balR (s := (splitBlock x.name y.name l' y).ops) ?_ (hrep y hy))
          have h0 := jumps_mem hgood.nodup (hold y hy)
          exact h0
    have := same_of hT (hrep e (by rw [hge]; simp))
    rw [hge, hge'] at this ⊢
    exact this

end Nature.Cfg
