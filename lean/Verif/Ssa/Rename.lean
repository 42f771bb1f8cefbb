/-
Renaming: ssa.c:512-658.  The numbers on top of the stacks when a block is entered and left, in relation to those at its
immediate dominator.
-/
import Verif.Ssa.Phi
namespace Nature.Ssa

/-- The current number of each variable. -/
def top (nm : Names) : Var → Option Nat := fun v => (nm.stk v).head?

/-- Current numbers after the definitions `l`. -/
def assignNames (h : Var → Option Nat) : List (Var × Nat) → Var → Option Nat
  | [] => h
  | x :: r => assignNames (upd h x.1 (some x.2)) r

/-- `rs` are the operations `os` with reads named by the current numbers `h`, which become `h'`. -/
def OpsNamed (h : Var → Option Nat) : List Op → List ROp → (Var → Option Nat) → Prop
  | [], [], h' => h' = h
  | o :: os, r :: rs, h' => r.code = o.code ∧ r.uses.map Prod.fst = o.uses ∧ (∀ x ∈ r.uses, h x.1 = some x.2) ∧
      r.defs.map Prod.fst = o.defs ∧ OpsNamed (assignNames h r.defs) os rs h'
  | _, _, _ => False

theorem assignNames_append (h : Nat → Option Nat) : ∀ (l m : List (Nat × Nat)),
    assignNames h (l ++ m) = assignNames (assignNames h l) m := by
  intro l
  induction l generalizing h with
  | nil => intro m; rfl
  | cons x l ih => intro m; exact ih _ m

theorem assignNames_mem : ∀ (l : List (Nat × Nat)) (h : Nat → Option Nat) (v : Nat),
    (¬ v ∈ l.map Prod.fst → assignNames h l v = h v) ∧
    (v ∈ l.map Prod.fst → ∃ k, (v, k) ∈ l ∧ assignNames h l v = some k) := by
  intro l
  induction l with
  | nil => intro h v; simp [assignNames]
  | cons x l ih =>
    intro h v
    obtain ⟨i1, i2⟩ := ih (upd h x.1 (some x.2)) v
    simp only [assignNames, List.map_cons, List.mem_cons, not_or]
    refine ⟨fun hv => ?_, fun hv => ?_⟩
    · rw [i1 hv.2]
      simp [upd, hv.1]
    · by_cases hm : v ∈ l.map Prod.fst
      · obtain ⟨k, hk, e⟩ := i2 hm
        exact ⟨k, Or.inr hk, e⟩
      · have hx := hv.resolve_right hm
        refine ⟨x.2, Or.inl (by rw [hx]), ?_⟩
        rw [i1 hm, hx]
        simp [upd]

/-! ### Stacks -/

/-- `s'` comes from `s` by pushing one number for each of `vs`. -/
def Pushed (vs : List Var) (s s' : Names) : Prop := ∀ v, (s'.stk v).drop (vs.count v) = s.stk v

theorem pushed_trans {vs ws : List Nat} {s s' s'' : Names} (h1 : Pushed vs s s') (h2 : Pushed ws s' s'') :
    Pushed (vs ++ ws) s s'' := by
  intro v
  rw [List.count_append, Nat.add_comm, ← List.drop_drop, h2 v, h1 v]

theorem newNumber_spec {s : Names} {v : Var} {r : Names × Nat} (h : newNumber s v = some r) :
    Pushed [v] s r.1 ∧ top r.1 = upd (top s) v (some (r.2 % 256)) := by
  simp only [newNumber] at h
  split at h
  · simp at h
  · simp only [Option.some.injEq] at h
    subst h
    refine ⟨fun x => ?_, funext fun x => ?_⟩
    · by_cases hx : x = v
      · subst hx; simp [upd]
      · have : [v].count x = 0 := List.count_eq_zero.mpr (by simpa using hx)
        rw [this]
        simp [upd, hx]
    · by_cases hx : x = v
      · subst hx; simp [upd, top]
      · simp [upd, hx, top]

theorem namePhis_spec : ∀ (vs : List Nat) (s : Names) (r : Names × List (Nat × Nat)), namePhis s vs = some r →
    Pushed vs s r.1 ∧ r.2.map Prod.fst = vs ∧ top r.1 = assignNames (top s) r.2 := by
  intro vs
  induction vs with
  | nil =>
    intro s r h
    simp only [namePhis, Option.some.injEq] at h
    subst h
    exact ⟨fun v => by simp, rfl, rfl⟩
  | cons v vs ih =>
    intro s r h
    simp only [namePhis, Option.bind_eq_some_iff] at h
    obtain ⟨q, h1, h2⟩ := h
    split at h2
    · rename_i hlt
      simp only [Option.bind_eq_some_iff, Option.some.injEq] at h2
      obtain ⟨t, h3, h4⟩ := h2
      subst h4
      obtain ⟨a1, a2⟩ := newNumber_spec h1
      obtain ⟨b1, b2, b3⟩ := ih _ _ h3
      refine ⟨pushed_trans (vs := [v]) a1 b1, by simp [b2], ?_⟩
      simp only [assignNames]
      rw [b3, a2, Nat.mod_eq_of_lt (by omega)]
    · simp at h2

theorem nameDefs_spec : ∀ (vs : List Nat) (s : Names) (r : Names × List (Nat × Nat)), nameDefs s vs = some r →
    Pushed vs s r.1 ∧ r.2.map Prod.fst = vs ∧ top r.1 = assignNames (top s) r.2 := by
  intro vs
  induction vs with
  | nil =>
    intro s r h
    simp only [nameDefs, Option.some.injEq] at h
    subst h
    exact ⟨fun v => by simp, rfl, rfl⟩
  | cons v vs ih =>
    intro s r h
    simp only [nameDefs, Option.bind_eq_some_iff] at h
    obtain ⟨q, h1, h2⟩ := h
    split at h2
    · simp only [Option.bind_eq_some_iff, Option.some.injEq] at h2
      obtain ⟨t, h3, h4⟩ := h2
      subst h4
      obtain ⟨a1, a2⟩ := newNumber_spec h1
      obtain ⟨b1, b2, b3⟩ := ih _ _ h3
      refine ⟨pushed_trans (vs := [v]) a1 b1, by simp [b2], ?_⟩
      simp only [assignNames]
      rw [b3, a2]
    · simp at h2

theorem nameUses_spec {s : Names} : ∀ (vs : List Nat) (r : List (Nat × Nat)), nameUses s vs = some r →
    r.map Prod.fst = vs ∧ ∀ x ∈ r, top s x.1 = some x.2 := by
  intro vs
  induction vs with
  | nil =>
    intro r h
    simp only [nameUses, Option.some.injEq] at h
    subst h
    simp
  | cons v vs ih =>
    intro r h
    simp only [nameUses] at h
    cases hs : s.stk v with
    | nil => simp [hs] at h
    | cons k ks =>
      simp only [hs, Option.bind_eq_some_iff, Option.some.injEq] at h
      obtain ⟨q, h1, h2⟩ := h
      subst h2
      obtain ⟨i1, i2⟩ := ih _ h1
      refine ⟨by simp [i1], ?_⟩
      rw [List.forall_mem_cons]
      exact ⟨by simp [top, hs], i2⟩

theorem nameOps_spec : ∀ (os : List Op) (s : Names) (r : Names × List ROp), nameOps s os = some r →
    Pushed (os.flatMap (·.defs)) s r.1 ∧ OpsNamed (top s) os r.2 (top r.1) := by
  intro os
  induction os with
  | nil =>
    intro s r h
    simp only [nameOps, Option.some.injEq] at h
    subst h
    exact ⟨fun v => by simp, rfl⟩
  | cons o os ih =>
    intro s r h
    simp only [nameOps, Option.bind_eq_some_iff, Option.some.injEq] at h
    obtain ⟨us, h1, ds, h2, q, h3, h4⟩ := h
    subst h4
    obtain ⟨u1, u2⟩ := nameUses_spec _ _ h1
    obtain ⟨d1, d2, d3⟩ := nameDefs_spec _ _ _ h2
    obtain ⟨i1, i2⟩ := ih _ _ h3
    refine ⟨?_, rfl, u1, u2, d2, ?_⟩
    · rw [List.flatMap_cons]
      exact pushed_trans d1 i1
    · rw [d3] at i2
      exact i2

theorem popDefs_spec {G : List Nat} : ∀ (vs : List Nat) (stk : Nat → List Nat) (v : Nat),
    popDefs G vs stk v = if v ∈ G then (stk v).drop (vs.count v) else stk v := by
  intro vs
  induction vs with
  | nil => intro stk v; simp [popDefs]
  | cons x vs ih =>
    intro stk v
    simp only [popDefs]
    rw [ih]
    by_cases hv : v ∈ G
    · simp only [hv, if_true]
      by_cases hx : v = x
      · subst hx
        simp only [hv, if_true, upd, List.count_cons_self]
        rw [Nat.add_comm, ← List.drop_drop, List.drop_one]
      · rw [List.count_cons_of_ne (fun e => hx e.symm)]
        split
        · simp [upd, hx]
        · rfl
    · simp only [hv, if_false]
      split
      · rename_i hx
        have : ¬ v = x := fun e => hv (e ▸ hx)
        simp [upd, this]
      · rfl

/-! ### Arguments -/

theorem nameArgs_spec {nm : Names} {s : Blk} {i : Nat} : ∀ (vs : List Nat) (a a' : Nat → Nat → Nat → Option Nat),
    nameArgs nm s i vs a = some a' → (∀ s v i k, a s v i = some k → a' s v i = some k) ∧
    ∀ v ∈ vs, ∃ k, a' s v i = some k ∧ top nm v = some k := by
  intro vs
  induction vs with
  | nil =>
    intro a a' h
    simp only [nameArgs, Option.some.injEq] at h
    subst h
    exact ⟨fun _ _ _ _ h => h, by simp⟩
  | cons v vs ih =>
    intro a a' h
    simp only [nameArgs] at h
    cases ha : a s v i with
    | some k => simp [ha] at h
    | none =>
      cases hs : nm.stk v with
      | nil => simp [ha, hs] at h
      | cons k ks =>
        simp only [ha, hs] at h
        obtain ⟨i1, i2⟩ := ih _ _ h
        refine ⟨fun s' v' i' k' h' => i1 _ _ _ _ ?_, ?_⟩
        · simp only [setArg]
          split
          · rename_i he
            obtain ⟨rfl, rfl, rfl⟩ := he
            rw [ha] at h'
            simp at h'
          · exact h'
        · rw [List.forall_mem_cons]
          exact ⟨⟨k, i1 _ _ _ _ (by simp [setArg]), by simp [top, hs]⟩, i2⟩

theorem nameSuccs_spec {c : Cfg} {phis : Nat → List Nat} {nm : Names} {b : Blk} : ∀ (ss : List Nat)
    (a a' : Nat → Nat → Nat → Option Nat), nameSuccs c phis nm b ss a = some a' →
    (∀ s v i k, a s v i = some k → a' s v i = some k) ∧
    ∀ s ∈ ss, ∀ v ∈ phis s, ∃ i k, phiIndex (c.preds s) b = some i ∧ a' s v i = some k ∧ top nm v = some k := by
  intro ss
  induction ss with
  | nil =>
    intro a a' h
    simp only [nameSuccs, Option.some.injEq] at h
    subst h
    exact ⟨fun _ _ _ _ h => h, by simp⟩
  | cons s ss ih =>
    intro a a' h
    simp only [nameSuccs] at h
    cases hp : phis s with
    | nil =>
      simp only [hp] at h
      obtain ⟨i1, i2⟩ := ih _ _ h
      refine ⟨i1, ?_⟩
      rw [List.forall_mem_cons]
      exact ⟨by simp [hp], i2⟩
    | cons v vs =>
      simp only [hp] at h
      cases hi : phiIndex (c.preds s) b with
      | none => simp [hi] at h
      | some i =>
        simp only [hi, Option.bind_eq_some_iff] at h
        obtain ⟨a1, h1, h2⟩ := h
        obtain ⟨x1, x2⟩ := nameArgs_spec _ _ _ h1
        obtain ⟨i1, i2⟩ := ih _ _ h2
        refine ⟨fun s v i k h => i1 _ _ _ _ (x1 _ _ _ _ h), ?_⟩
        rw [List.forall_mem_cons]
        refine ⟨fun v' hv' => ?_, i2⟩
        rw [hp] at hv'
        obtain ⟨k, k1, k2⟩ := x2 v' hv'
        exact ⟨i, k, hi, i1 _ _ _ _ k1, k2⟩

/-! ### The walk over the tree -/

/-- What one visited block looks like. -/
def Local (c : Cfg) (phis : Blk → List Var) (O : Out) (x : Blk) : Prop :=
  (O.phis x).map Prod.fst = phis x ∧ OpsNamed (assignNames (O.inn x) (O.phis x)) (c.ops x) (O.ops x) (O.out x) ∧
  ∀ s ∈ c.succs x, ∀ v ∈ phis s, ∃ i k, phiIndex (c.preds s) x = some i ∧ O.args s v i = some k ∧ O.out x v = some k

/-- The numbers on entering a block are those on leaving its immediate dominator. -/
def Link (G : List Var) (O : Out) (x y : Blk) : Prop :=
  ∀ v, (v ∈ G → O.inn y v = O.out x v) ∧ (¬ v ∈ G → ∀ k, O.out x v = some k → O.inn y v = some k)

/-- Nothing recorded for block `x` differs. -/
def Same (O O' : Out) (x : Blk) : Prop := O'.phis x = O.phis x ∧ O'.ops x = O.ops x ∧ O'.inn x = O.inn x ∧ O'.out x = O.out x

def ArgsLe (O O' : Out) : Prop := ∀ s v i k, O.args s v i = some k → O'.args s v i = some k

theorem same_trans {O O' O'' : Out} {x : Blk} (h1 : Same O O' x) (h2 : Same O' O'' x) : Same O O'' x :=
  ⟨h2.1.trans h1.1, h2.2.1.trans h1.2.1, h2.2.2.1.trans h1.2.2.1, h2.2.2.2.trans h1.2.2.2⟩

theorem local_same {c : Cfg} {phis : Nat → List Nat} {O O' : Out} {x : Blk} (h : Local c phis O x) (hs : Same O O' x)
    (ha : ArgsLe O O') : Local c phis O' x := by
  obtain ⟨s1, s2, s3, s4⟩ := hs
  obtain ⟨l1, l2, l3⟩ := h
  refine ⟨by rw [s1]; exact l1, by rw [s1, s2, s3, s4]; exact l2, fun s hs v hv => ?_⟩
  obtain ⟨i, k, h1, h2, h3⟩ := l3 s hs v hv
  exact ⟨i, k, h1, ha _ _ _ _ h2, by rw [s4]; exact h3⟩

theorem link_same {G : List Nat} {O O' : Out} {x y : Blk} (h : Link G O x y) (hx : Same O O' x) (hy : Same O O' y) :
    Link G O' x y := by
  intro v
  rw [hx.2.2.2, hy.2.2.1]
  exact h v

/-- The blocks in the part of the tree below `b`. -/
def Sub (c : Cfg) (b x : Blk) : Prop := x < c.length ∧ Dominates c b x

/-- Blocks below `b` do not define variables that have a number and are not popped. -/
def Pre (c : Cfg) (phis : Blk → List Var) (G : List Var) (b : Blk) (nm : Names) : Prop :=
  ∀ v, ¬ v ∈ G → nm.stk v ≠ [] → ∀ x, Sub c b x → ¬ v ∈ blockDefs c phis x

structure Visit (c : Cfg) (idom : Blk → Option Blk) (phis : Blk → List Var) (G : List Var) (b : Blk) (st st' : Names × Out) :
    Prop where
  pop : ∀ v ∈ G, st'.1.stk v = st.1.stk v
  keep : ∀ v, ¬ v ∈ G → (∀ x, Sub c b x → ¬ v ∈ blockDefs c phis x) → st'.1.stk v = st.1.stk v
  same : ∀ x, ¬ Sub c b x → Same st.2 st'.2 x
  args : ArgsLe st.2 st'.2
  loc : ∀ x, Sub c b x → Local c phis st'.2 x
  link : ∀ y x, Sub c b y → y ≠ b → idom y = some x → Link G st'.2 x y
  inn : st'.2.inn b = top st.1

/-- The same for several subtrees, one after the other. -/
structure Visits (c : Cfg) (idom : Blk → Option Blk) (phis : Blk → List Var) (G : List Var) (ys : List Blk)
    (st st' : Names × Out) : Prop where
  pop : ∀ v ∈ G, st'.1.stk v = st.1.stk v
  same : ∀ x, (∀ y ∈ ys, ¬ Sub c y x) → Same st.2 st'.2 x
  keep : ∀ v, ¬ v ∈ G → (∀ y ∈ ys, ∀ x, Sub c y x → ¬ v ∈ blockDefs c phis x) → st'.1.stk v = st.1.stk v
  args : ArgsLe st.2 st'.2
  loc : ∀ y ∈ ys, ∀ x, Sub c y x → Local c phis st'.2 x
  link : ∀ r ∈ ys, ∀ y x, Sub c r y → y ≠ r → idom y = some x → Link G st'.2 x y
  inn : ∀ y ∈ ys, ∀ v, (v ∈ G → st'.2.inn y v = top st.1 v) ∧ (¬ v ∈ G → ∀ k, top st.1 v = some k → st'.2.inn y v = some k)

theorem mem_domees {c : Cfg} {idom : Nat → Option Nat} (hi : IdomOk c idom) {b y : Blk} :
    y ∈ domees c idom b ↔ idom y = some b := by
  simp only [domees, List.mem_filter, List.mem_range'_1, beq_iff_eq]
  constructor
  · exact fun h => h.2
  · intro h
    obtain ⟨h1, h2, _⟩ := (hi y b).mp h
    exact ⟨⟨by omega, by omega⟩, h⟩

/-- Below different children of one block are different blocks. -/
theorem sub_disjoint {c : Cfg} (w : Wf c) {idom : Nat → Option Nat} (hi : IdomOk c idom) {b y z x : Blk}
    (hy : idom y = some b) (hz : idom z = some b) (h1 : Sub c y x) (h2 : Sub c z x) : y = z := by
  obtain ⟨hy1, hy2, iy⟩ := (hi y b).mp hy
  obtain ⟨hz1, hz2, iz⟩ := (hi z b).mp hz
  apply Classical.byContradiction
  intro hne
  have aux : ∀ y z, y < c.length → ImmDom c b y → ImmDom c b z → y ≠ z → Dominates c y z → False := by
    intro y z hy iy iz hne hd
    exact iy.1 (dom_antisymm (w.reach b (dom_lt w hy iy.2.1)) iy.2.1 (iz.2.2 y hne hd))
  rcases dom_total (w.reach x h1.1) h1.2 h2.2 with h | h
  · exact aux y z hy1 iy iz hne h
  · exact aux z y hz1 iz iy (fun e => hne e.symm) h

theorem not_sub_child {c : Cfg} (w : Wf c) {idom : Nat → Option Nat} (hi : IdomOk c idom) {b y : Blk}
    (hy : idom y = some b) : ¬ Sub c y b := by
  obtain ⟨hy1, _, iy⟩ := (hi y b).mp hy
  exact fun h => iy.1 (dom_antisymm (w.reach b h.1) iy.2.1 h.2)

theorem sub_of_child {c : Cfg} {idom : Nat → Option Nat} (hi : IdomOk c idom) {b y x : Blk}
    (hy : idom y = some b) (h : Sub c y x) : Sub c b x := by
  obtain ⟨_, _, iy⟩ := (hi y b).mp hy
  exact ⟨h.1, dom_trans iy.2.1 h.2⟩

/-- Induction along immediate dominators. -/
theorem dom_induction {c : Cfg} (w : Wf c) {P : Blk → Prop}
    (h : ∀ x, x < c.length → (∀ i, ImmDom c i x → P i) → P x) : ∀ x, x < c.length → P x := by
  have key : ∀ n l x, l.length ≤ n → Walk c l x → P x := by
    intro n
    induction n with
    | zero =>
      intro l x hl hw
      obtain ⟨l', rfl⟩ := walk_head hw
      simp at hl
    | succ n ih =>
      intro l x hl hw
      refine h x (walk_lt w hw) fun i hi => ?_
      obtain ⟨l', w', _, _, hlt⟩ := walk_sub hw (hi.2.1 l hw)
      exact ih l' i (by have := hlt hi.1; omega) w'
  intro x hx
  obtain ⟨l, hl⟩ := w.reach x hx
  exact key _ l x (Nat.le_refl _) hl

theorem sub_cases {c : Cfg} (w : Wf c) {idom : Nat → Option Nat} (hi : IdomOk c idom) {b x : Blk} (h : Sub c b x) :
    x = b ∨ ∃ y, idom y = some b ∧ Sub c y x := by
  have : ∀ x, x < c.length → Dominates c b x → x = b ∨ ∃ y, idom y = some b ∧ Sub c y x := by
    refine dom_induction w fun x hx ih hd => ?_
    by_cases hxb : x = b
    · exact Or.inl hxb
    have hx0 : x ≠ 0 := fun e => hxb (by rw [e] at hd ⊢; exact (dom_of_zero hd).symm)
    obtain ⟨i, him⟩ := immDom_exists w hx hx0
    have hdi := him.2.2 b (fun e => hxb e.symm) hd
    have hii : idom x = some i := (hi x i).mpr ⟨hx, hx0, him⟩
    rcases ih i him hdi with h | ⟨y, hy, hs⟩
    · exact Or.inr ⟨x, by rw [hii, h], hx, dom_refl x⟩
    · exact Or.inr ⟨y, hy, hx, dom_trans hs.2 him.2.1⟩
  exact this x h.1 h.2

/-- Every variable that is not popped is defined in one block only. -/
def OneBlock (c : Cfg) (phis : Blk → List Var) (G : List Var) : Prop :=
  ∀ v, ¬ v ∈ G → ∀ x y, v ∈ blockDefs c phis x → v ∈ blockDefs c phis y → x = y

theorem visits_of {c : Cfg} (w : Wf c) {idom : Nat → Option Nat} (hi : IdomOk c idom) {phis : Nat → List Nat} {G : List Nat}
    (one : OneBlock c phis G) {f : Names × Out → Nat → Option (Names × Out)} {b : Blk}
    (hf : ∀ y, idom y = some b → ∀ st st', Pre c phis G y st.1 → f st y = some st' → Visit c idom phis G y st st') :
    ∀ (ys : List Nat), (∀ y ∈ ys, idom y = some b) → ys.Nodup → ∀ st st', (∀ y ∈ ys, Pre c phis G y st.1) →
      ys.foldlM f st = some st' → Visits c idom phis G ys st st' := by
  intro ys
  induction ys with
  | nil =>
    intro _ _ st st' _ h
    simp only [List.foldlM_nil, Option.pure_def, Option.some.injEq] at h
    subst h
    exact ⟨fun _ _ => rfl, fun _ _ => ⟨rfl, rfl, rfl, rfl⟩, fun _ _ _ => rfl, fun _ _ _ _ h => h, by simp, by simp, by simp⟩
  | cons y ys ih =>
    intro hy hn st st' hp h
    rw [List.nodup_cons] at hn
    simp only [List.foldlM_cons, Option.bind_eq_bind, Option.bind_eq_some_iff] at h
    obtain ⟨st1, h1, h2⟩ := h
    have hyb := hy y List.mem_cons_self
    have v1 := hf y hyb st st1 (hp y List.mem_cons_self) h1
    have hdis : ∀ z ∈ ys, ∀ x, Sub c y x → ¬ Sub c z x := by
      intro z hz x hx hx'
      exact hn.1 (sub_disjoint w hi hyb (hy z (List.mem_cons_of_mem _ hz)) hx hx' ▸ hz)
    have v2 := ih (fun z hz => hy z (List.mem_cons_of_mem _ hz)) hn.2 st1 st' (by
      intro z hz v hv hne x hx hd
      by_cases hst : st.1.stk v = []
      · apply hne
        rw [v1.keep v hv, hst]
        intro x' hx' hd'
        exact hdis z hz x (one v hv x' x hd' hd ▸ hx') hx
      · exact hp z (List.mem_cons_of_mem _ hz) v hv hst x hx hd) h2
    have hsame : ∀ x, Sub c y x → Same st1.2 st'.2 x := fun x hx => v2.same x fun z hz => hdis z hz x hx
    refine ⟨?_, ?_, ?_, ?_, ?_, ?_, ?_⟩
    · intro v hv
      rw [v2.pop v hv, v1.pop v hv]
    · intro x hx
      rw [List.forall_mem_cons] at hx
      exact same_trans (v1.same x hx.1) (v2.same x hx.2)
    · intro v hv hx
      rw [List.forall_mem_cons] at hx
      rw [v2.keep v hv hx.2, v1.keep v hv hx.1]
    · exact fun s v i k h => v2.args _ _ _ _ (v1.args _ _ _ _ h)
    · rw [List.forall_mem_cons]
      exact ⟨fun x hx => local_same (v1.loc x hx) (hsame x hx) v2.args, v2.loc⟩
    · rw [List.forall_mem_cons]
      refine ⟨fun z x hz hne hzx => ?_, v2.link⟩
      have hx : Sub c y x := by
        obtain ⟨z1, z2, z3⟩ := (hi z x).mp hzx
        exact ⟨dom_lt w z1 z3.2.1, z3.2.2 y (fun e => hne e.symm) hz.2⟩
      exact link_same (v1.link z x hz hne hzx) (hsame x hx) (hsame z hz)
    · rw [List.forall_mem_cons]
      have hyy : Sub c y y := ⟨((hi y b).mp hyb).1, dom_refl y⟩
      refine ⟨fun v => ?_, fun z hz v => ?_⟩
      · rw [(hsame y hyy).2.2.1, v1.inn]
        exact ⟨fun _ => rfl, fun _ k h => h⟩
      · obtain ⟨i1, i2⟩ := v2.inn z hz v
        refine ⟨fun hv => ?_, fun hv k hk => i2 hv k ?_⟩
        · rw [i1 hv, top, v1.pop v hv, top]
        · have hst : st.1.stk v ≠ [] := by
            intro e
            simp [top, e] at hk
          rw [top, v1.keep v hv (fun x hx => hp y List.mem_cons_self v hv hst x hx)]
          exact hk

theorem visit_of {c : Cfg} (w : Wf c) {idom : Nat → Option Nat} (hi : IdomOk c idom) {phis : Nat → List Nat} {G : List Nat}
    (one : OneBlock c phis G) : ∀ (n : Nat) (b : Blk), b < c.length → ∀ st st', Pre c phis G b st.1 →
      renameBlock c phis G (domees c idom) n b st = some st' → Visit c idom phis G b st st' := by
  intro n
  induction n with
  | zero => intro b _ st st' _ h; simp [renameBlock] at h
  | succ n ih =>
    intro b hb st st' hp h
    simp only [renameBlock, Option.bind_eq_some_iff] at h
    obtain ⟨r, h1, a, h2, q, h3, h4⟩ := h
    simp only [Option.some.injEq] at h4
    subst h4
    simp only [nameBlock, Option.bind_eq_some_iff, Option.some.injEq] at h1
    obtain ⟨p, p1, o, o1, e⟩ := h1
    subst e
    obtain ⟨pa, pb, pc⟩ := namePhis_spec _ _ _ p1
    obtain ⟨oa, ob⟩ := nameOps_spec _ _ _ o1
    rw [pc] at ob
    have hpush : Pushed (blockDefs c phis b) st.1 o.1 := pushed_trans pa oa
    obtain ⟨s1, s2⟩ := nameSuccs_spec _ _ _ h2
    have vs := visits_of w hi one (f := fun st d => renameBlock c phis G (domees c idom) n d st) (b := b)
      (fun y hy st st' hp h => ih y ((hi y b).mp hy).1 st st' hp h) _ (fun y hy => (mem_domees hi).mp hy)
      (List.Nodup.sublist List.filter_sublist List.nodup_range') _ _ (by
        intro y hy v hv hne x hx hd
        replace hy := (mem_domees hi).mp hy
        by_cases hdb : v ∈ blockDefs c phis b
        · rw [one v hv x b hd hdb] at hx
          exact not_sub_child w hi hy hx
        · refine hp v hv ?_ x (sub_of_child hi hy hx) hd
          have := hpush v
          rw [List.count_eq_zero.mpr hdb, List.drop_zero] at this
          rw [← this]
          exact hne) h3
    have hnb : ∀ y ∈ domees c idom b, ¬ Sub c y b := fun y hy => not_sub_child w hi ((mem_domees hi).mp hy)
    have hsb := vs.same b hnb
    simp only [Same, upd, if_true] at hsb
    obtain ⟨e1, e2, e3, e4⟩ := hsb
    refine ⟨?_, ?_, ?_, ?_, ?_, ?_, ?_⟩
    · intro v hv
      simp only [popDefs_spec, hv, if_true]
      rw [vs.pop v hv]
      exact hpush v
    · intro v hv hx
      simp only [popDefs_spec, hv, if_false]
      rw [vs.keep v hv (fun y hy x hs => hx x (sub_of_child hi ((mem_domees hi).mp hy) hs))]
      have := hpush v
      rwa [List.count_eq_zero.mpr (hx b ⟨hb, dom_refl b⟩), List.drop_zero] at this
    · intro x hx
      have hxb : ¬ x = b := fun e => hx (by rw [e]; exact ⟨hb, dom_refl b⟩)
      have := vs.same x fun y hy hs => hx (sub_of_child hi ((mem_domees hi).mp hy) hs)
      simpa [Same, upd, hxb] using this
    · exact fun s v i k h => vs.args _ _ _ _ (s1 _ _ _ _ h)
    · intro x hx
      rcases sub_cases w hi hx with rfl | ⟨y, hy, hs⟩
      · refine ⟨by rw [e1]; exact pb, by rw [e1, e2, e3, e4]; exact ob, fun s hs v hv => ?_⟩
        obtain ⟨i, k, k1, k2, k3⟩ := s2 s hs v hv
        exact ⟨i, k, k1, vs.args _ _ _ _ k2, by rw [e4]; exact k3⟩
      · exact vs.loc y ((mem_domees hi).mpr hy) x hs
    · intro y x hy hne hyx
      rcases sub_cases w hi hy with rfl | ⟨z, hz, hs⟩
      · exact absurd rfl hne
      by_cases hyz : y = z
      · subst hyz
        rw [hz] at hyx
        simp only [Option.some.injEq] at hyx
        subst hyx
        intro v
        have := vs.inn y ((mem_domees hi).mpr hz) v
        rw [e4]
        exact this
      · exact vs.link z ((mem_domees hi).mpr hz) y x hs hyz hyx
    · rw [e3]
      rfl

end Nature.Ssa
