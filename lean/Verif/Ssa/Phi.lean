/-
Dominance frontiers and the placing of phi functions: ssa.c:169-199 and 251-291.
-/
import Verif.Ssa.Live
namespace Nature.Ssa

/-- `x` is on the way up from `r` in the tree of immediate dominators, before `stop`. -/
inductive OnChain (idom : Blk → Option Blk) (stop : Blk) : Blk → Blk → Prop
  | here {r : Blk} : r ≠ stop → OnChain idom stop r r
  | up {r r' x : Blk} : r ≠ stop → idom r = some r' → OnChain idom stop r' x → OnChain idom stop r x

theorem runner_spec {idom : Nat → Option Nat} {stop cur : Blk} : ∀ (n : Nat) (r : Blk) (df df' : Dom),
    runner idom stop cur n r df = some df' → (∀ x y, y ∈ df x → y ∈ df' x) ∧ (∀ x y, y ∈ df' x → y ∈ df x ∨ y = cur) ∧
    ∀ x, OnChain idom stop r x → cur ∈ df' x := by
  intro n
  induction n with
  | zero => intro r df df' h; simp [runner] at h
  | succ n ih =>
    intro r df df' h
    simp only [runner] at h
    split at h
    · rename_i hr
      simp only [Option.some.injEq] at h
      subst h
      refine ⟨fun x y h => h, fun x y h => Or.inl h, fun x hx => ?_⟩
      cases hx with
      | here h => exact absurd hr h
      | up h _ _ => exact absurd hr h
    · rename_i hr
      cases hi : idom r with
      | none => simp [hi] at h
      | some r' =>
        simp only [hi] at h
        split at h
        · simp at h
        · obtain ⟨i1, i2, i3⟩ := ih _ _ _ h
          have hm : ∀ x y, y ∈ upd df r (df r ++ [cur]) x ↔ y ∈ df x ∨ (x = r ∧ y = cur) := by
            intro x y
            by_cases hx : x = r
            · subst hx; simp [upd]
            · simp [upd, hx]
          refine ⟨fun x y hy => i1 x y ((hm x y).mpr (Or.inl hy)), fun x y hy => ?_, fun x hx => ?_⟩
          · rcases i2 x y hy with h | h
            · exact ((hm x y).mp h).imp id fun h => h.2
            · exact Or.inr h
          · cases hx with
            | here _ => exact i1 r cur ((hm r cur).mpr (Or.inr ⟨rfl, rfl⟩))
            | up _ h' hc =>
              rw [hi] at h'
              simp only [Option.some.injEq] at h'
              subst h'
              exact i3 x hc

theorem dfPreds_spec {n : Nat} {idom : Nat → Option Nat} {stop cur : Blk} : ∀ (ps : List Nat) (df df' : Dom),
    dfPreds n idom stop cur ps df = some df' → (∀ x y, y ∈ df x → y ∈ df' x) ∧ (∀ x y, y ∈ df' x → y ∈ df x ∨ y = cur) ∧
    ∀ p ∈ ps, ∀ x, OnChain idom stop p x → cur ∈ df' x := by
  intro ps
  induction ps with
  | nil =>
    intro df df' h
    simp only [dfPreds, Option.some.injEq] at h
    subst h
    exact ⟨fun x y h => h, fun x y h => Or.inl h, by simp⟩
  | cons p ps ih =>
    intro df df' h
    simp only [dfPreds, Option.bind_eq_some_iff] at h
    obtain ⟨df1, h1, h2⟩ := h
    obtain ⟨a1, a2, a3⟩ := runner_spec _ _ _ _ h1
    obtain ⟨b1, b2, b3⟩ := ih _ _ h2
    refine ⟨fun x y hy => b1 x y (a1 x y hy), fun x y hy => ?_, ?_⟩
    · rcases b2 x y hy with h | h
      · exact a2 x y h
      · exact Or.inr h
    · rw [List.forall_mem_cons]
      exact ⟨fun x hx => b1 x cur (a3 x hx), b3⟩

theorem dfBlocks_spec {c : Cfg} {idom : Nat → Option Nat} : ∀ (bs : List Nat) (df df' : Dom),
    dfBlocks c idom bs df = some df' → (∀ x y, y ∈ df x → y ∈ df' x) ∧
    (∀ x y, y ∈ df' x → y ∈ df x ∨ (y ∈ bs ∧ 2 ≤ (c.preds y).length)) ∧
    ∀ s ∈ bs, 2 ≤ (c.preds s).length → ∃ i, idom s = some i ∧ ∀ p ∈ c.preds s, ∀ x, OnChain idom i p x → s ∈ df' x := by
  intro bs
  induction bs with
  | nil =>
    intro df df' h
    simp only [dfBlocks, Option.some.injEq] at h
    subst h
    exact ⟨fun x y h => h, fun x y h => Or.inl h, by simp⟩
  | cons b bs ih =>
    intro df df' h
    simp only [dfBlocks] at h
    split at h
    · rename_i hb
      obtain ⟨i1, i2, i3⟩ := ih _ _ h
      refine ⟨i1, fun x y hy => (i2 x y hy).imp id fun h => ⟨List.mem_cons_of_mem _ h.1, h.2⟩, ?_⟩
      rw [List.forall_mem_cons]
      exact ⟨fun h => by omega, i3⟩
    · rename_i hb
      cases hi : idom b with
      | none => simp [hi] at h
      | some i =>
        simp only [hi, Option.bind_eq_some_iff] at h
        obtain ⟨df1, h1, h2⟩ := h
        obtain ⟨a1, a2, a3⟩ := dfPreds_spec _ _ _ h1
        obtain ⟨i1, i2, i3⟩ := ih _ _ h2
        refine ⟨fun x y hy => i1 x y (a1 x y hy), fun x y hy => ?_, ?_⟩
        · rcases i2 x y hy with h | h
          · rcases a2 x y h with h | h
            · exact Or.inl h
            · exact Or.inr ⟨by simp [h], by rw [h]; omega⟩
          · exact Or.inr ⟨List.mem_cons_of_mem _ h.1, h.2⟩
        · rw [List.forall_mem_cons]
          exact ⟨fun _ => ⟨i, hi, fun p hp x hx => i1 x b (a3 p hp x hx)⟩, i3⟩

/-! ### The work list -/

theorem phiFrontier_spec {v : Var} {liveIn : Nat → List Nat} : ∀ (ds work ins : List Nat),
    (∀ x ∈ work, x ∈ (phiFrontier v liveIn ds work ins).1) ∧ (∀ x ∈ ins, x ∈ (phiFrontier v liveIn ds work ins).2) ∧
    (∀ x ∈ (phiFrontier v liveIn ds work ins).2, x ∈ ins ∨ (x ∈ (phiFrontier v liveIn ds work ins).1 ∧ x ∈ ds ∧ v ∈ liveIn x)) ∧
    (∀ x ∈ ds, v ∈ liveIn x → x ∈ (phiFrontier v liveIn ds work ins).2) ∧
    (ins.Nodup → (phiFrontier v liveIn ds work ins).2.Nodup) ∧
    (phiFrontier v liveIn ds work ins).1.length + ins.length = work.length + (phiFrontier v liveIn ds work ins).2.length := by
  intro ds
  induction ds with
  | nil => intro work ins; simp [phiFrontier]
  | cons d ds ih =>
    intro work ins
    simp only [phiFrontier]
    split
    · rename_i hd
      obtain ⟨i1, i2, i3, i4, i5, i6⟩ := ih work ins
      refine ⟨i1, i2, fun x hx => (i3 x hx).imp id fun h => ⟨h.1, List.mem_cons_of_mem _ h.2.1, h.2.2⟩, ?_, i5, i6⟩
      rw [List.forall_mem_cons]
      exact ⟨fun _ => i2 d hd, i4⟩
    · rename_i hd
      split
      · rename_i hv
        obtain ⟨i1, i2, i3, i4, i5, i6⟩ := ih work ins
        refine ⟨i1, i2, fun x hx => (i3 x hx).imp id fun h => ⟨h.1, List.mem_cons_of_mem _ h.2.1, h.2.2⟩, ?_, i5, i6⟩
        rw [List.forall_mem_cons]
        exact ⟨fun h => absurd h hv, i4⟩
      · rename_i hv
        obtain ⟨i1, i2, i3, i4, i5, i6⟩ := ih (work ++ [d]) (ins ++ [d])
        refine ⟨fun x hx => i1 x (List.mem_append_left _ hx), fun x hx => i2 x (List.mem_append_left _ hx), fun x hx => ?_, ?_,
          fun hn => i5 (List.nodup_append.mpr ⟨hn, by simp, ?_⟩), ?_⟩
        · rcases i3 x hx with h | h
          · rcases List.mem_append.mp h with h | h
            · exact Or.inl h
            · rw [List.mem_singleton] at h
              subst h
              exact Or.inr ⟨i1 x (by simp), by simp, Classical.not_not.mp hv⟩
          · exact Or.inr ⟨h.1, List.mem_cons_of_mem _ h.2.1, h.2.2⟩
        · rw [List.forall_mem_cons]
          exact ⟨fun _ => i2 d (by simp), i4⟩
        · intro a ha b hb
          rw [List.mem_singleton] at hb
          exact fun e => hd (hb ▸ e ▸ ha)
        · simp only [List.length_append, List.length_singleton] at i6
          omega

theorem phiLoop_spec {v : Var} {df : Dom} {liveIn : Nat → List Nat} {init : List Nat} : ∀ (n : Nat) (work ins r : List Nat),
    (∀ x, x ∈ init ∨ x ∈ ins → x ∈ work ∨ ∀ s ∈ df x, v ∈ liveIn s → s ∈ ins) →
    (∀ x ∈ ins, v ∈ liveIn x ∧ ∃ y, x ∈ df y) →
    phiLoop v df liveIn n work ins = some r →
    (∀ x, x ∈ init ∨ x ∈ r → ∀ s ∈ df x, v ∈ liveIn s → s ∈ r) ∧ ∀ x ∈ r, v ∈ liveIn x ∧ ∃ y, x ∈ df y := by
  intro n
  induction n with
  | zero =>
    intro work ins r h1 h2 h
    cases work with
    | nil =>
      simp only [phiLoop, Option.some.injEq] at h
      subst h
      exact ⟨fun x hx => (h1 x hx).resolve_left (by simp), h2⟩
    | cons b work => simp [phiLoop] at h
  | succ n ih =>
    intro work ins r h1 h2 h
    cases work with
    | nil =>
      simp only [phiLoop, Option.some.injEq] at h
      subst h
      exact ⟨fun x hx => (h1 x hx).resolve_left (by simp), h2⟩
    | cons b work =>
      simp only [phiLoop] at h
      obtain ⟨f1, f2, f3, f4, _⟩ := phiFrontier_spec (v := v) (liveIn := liveIn) (df b) work ins
      refine ih _ _ _ ?_ ?_ h
      · intro x hx
        have hx' : (x ∈ init ∨ x ∈ ins) ∨ x ∈ (phiFrontier v liveIn (df b) work ins).1 := by
          rcases hx with h | h
          · exact Or.inl (Or.inl h)
          · rcases f3 x h with h | h
            · exact Or.inl (Or.inr h)
            · exact Or.inr h.1
        rcases hx' with hx' | hx'
        · rcases h1 x hx' with h | h
          · rcases List.mem_cons.mp h with rfl | h
            · exact Or.inr f4
            · exact Or.inl (f1 x h)
          · exact Or.inr fun s hs hv => f2 s (h s hs hv)
        · exact Or.inl hx'
      · intro x hx
        rcases f3 x hx with h | h
        · exact h2 x h
        · exact ⟨h.2.2, b, h.2.1⟩

theorem addPhis_spec {a : Analysis} {df : Dom} {liveIn : Nat → List Nat} {fuel : Nat} : ∀ (vs : List Nat)
    (ins r : Nat → List Nat), vs.Nodup → addPhis a df liveIn fuel vs ins = some r →
    (∀ v ∈ vs, phiLoop v df liveIn fuel (a.varBlocks v) [] = some (r v)) ∧ ∀ v, ¬ v ∈ vs → r v = ins v := by
  intro vs
  induction vs with
  | nil =>
    intro ins r _ h
    simp only [addPhis, Option.some.injEq] at h
    subst h
    exact ⟨by simp, fun v _ => rfl⟩
  | cons x vs ih =>
    intro ins r hn h
    rw [List.nodup_cons] at hn
    simp only [addPhis] at h
    split at h
    · simp at h
    · simp only [Option.bind_eq_some_iff] at h
      obtain ⟨l, h1, h2⟩ := h
      obtain ⟨i1, i2⟩ := ih _ _ hn.2 h2
      refine ⟨?_, fun v hv => ?_⟩
      · rw [List.forall_mem_cons]
        refine ⟨?_, i1⟩
        rw [i2 x hn.1, h1]
        simp [upd]
      · simp only [List.mem_cons, not_or] at hv
        rw [i2 v hv.2]
        simp [upd, hv.1]

/-- What the renaming relies on: phi functions stand where a variable is live, and where its definitions meet. -/
structure PhiSpec (c : Cfg) (idom : Blk → Option Blk) (phis : Blk → List Var) (merged : List Var) : Prop where
  nodup : ∀ b, (phis b).Nodup
  live : ∀ b v, v ∈ phis b → LiveAt c v b
  join : ∀ b v, v ∈ phis b → 2 ≤ (c.preds b).length ∧ b < c.length
  closed : ∀ s i p x v, s < c.length → 2 ≤ (c.preds s).length → idom s = some i → p ∈ c.preds s → OnChain idom i p x →
    LiveAt c v s → (v ∈ phis x ∨ Writes v (c.ops x)) → v ∈ phis s
  merged : ∀ v, v ∈ merged ↔ ∃ b, v ∈ phis b

theorem liveAt_read {c : Cfg} {v : Var} {b : Blk} (h : LiveAt c v b) : ∃ x, ReadsFirst v (c.ops x) := by
  induction h with
  | read h => exact ⟨_, h⟩
  | pass _ _ _ ih => exact ih

theorem phiSpec_of {c : Cfg} {idom : Nat → Option Nat} {df : Dom} {l : Live} {fuel : Nat} {ins : Nat → List Nat}
    (hdf : ssaDf c idom = some df) (hl : ∀ b, b < c.length → ∀ v, v ∈ l.inn b ↔ LiveAt c v b)
    (h : addPhis (useDef c) df l.inn fuel (useDef c).globals (fun _ => []) = some ins) :
    PhiSpec c idom (phisOf (useDef c).globals ins) (merged (useDef c).globals ins) := by
  have u := useDef_spec c
  obtain ⟨a1, a2⟩ := addPhis_spec _ _ _ u.nodup h
  obtain ⟨_, d2, d3⟩ := dfBlocks_spec _ _ _ hdf
  have hdf' : ∀ x y, y ∈ df x → y < c.length ∧ 2 ≤ (c.preds y).length := by
    intro x y hy
    have := (d2 x y hy).resolve_left (by simp)
    exact ⟨List.mem_range.mp this.1, this.2⟩
  have hmem : ∀ b v, v ∈ phisOf (useDef c).globals ins b ↔ v ∈ (useDef c).globals ∧ b ∈ ins v := by
    intro b v
    simp [phisOf, List.mem_reverse, List.mem_filter]
  have hloop : ∀ v ∈ (useDef c).globals, (∀ x, x ∈ (useDef c).varBlocks v ∨ x ∈ ins v → ∀ s ∈ df x, v ∈ l.inn s → s ∈ ins v) ∧
      ∀ x ∈ ins v, v ∈ l.inn x ∧ ∃ y, x ∈ df y := by
    intro v hv
    exact phiLoop_spec _ _ _ _ (fun x hx => Or.inl (hx.resolve_right (by simp))) (by simp) (a1 v hv)
  refine ⟨fun b => ?_, fun b v hv => ?_, fun b v hv => ?_, ?_, fun v => ?_⟩
  · rw [phisOf, (List.reverse_perm _).nodup_iff]
    exact List.Nodup.sublist List.filter_sublist u.nodup
  · obtain ⟨h1, h2⟩ := (hmem b v).mp hv
    obtain ⟨h3, y, hy⟩ := (hloop v h1).2 b h2
    exact (hl b (hdf' y b hy).1 v).mp h3
  · obtain ⟨h1, h2⟩ := (hmem b v).mp hv
    obtain ⟨h3, y, hy⟩ := (hloop v h1).2 b h2
    exact ⟨(hdf' y b hy).2, (hdf' y b hy).1⟩
  · intro s i p x v hs h2 hi hp hc hlv hx
    obtain ⟨i', hi', hd⟩ := d3 s (List.mem_range.mpr hs) h2
    rw [hi] at hi'
    simp only [Option.some.injEq] at hi'
    subst hi'
    have hg : v ∈ (useDef c).globals := (u.globals v).mpr (liveAt_read hlv)
    refine (hmem s v).mpr ⟨hg, (hloop v hg).1 x ?_ s (hd p hp x hc) ((hl s hs v).mpr hlv)⟩
    rcases hx with hx | hx
    · exact Or.inr ((hmem x v).mp hx).2
    · exact Or.inl ((u.blocks v x).mpr hx)
  · simp only [hmem, merged, List.mem_filter, Bool.not_eq_true', List.isEmpty_eq_false_iff]
    constructor
    · rintro ⟨h1, h2⟩
      obtain ⟨b, hb⟩ := List.exists_mem_of_ne_nil _ h2
      exact ⟨b, h1, hb⟩
    · rintro ⟨b, h1, h2⟩
      exact ⟨h1, List.ne_nil_of_mem h2⟩

end Nature.Ssa
