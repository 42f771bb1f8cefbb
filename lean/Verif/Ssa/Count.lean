/-
Numbers given out while the tree is walked: ssa.c:538-680.
-/
import Verif.Ssa.Sim
namespace Nature.Ssa

/-- The blocks below `b`, in the order in which they are renamed. -/
def visit (tree : Blk → List Blk) : Nat → Blk → List Blk
  | 0, _ => []
  | n + 1, b => b :: (tree b).flatMap (visit tree n)

/-- `m` consecutive numbers for `v`. -/
def seq (v n m : Nat) : List (Var × Nat) := (List.range m).map fun j => (v, (n + 2 * j) % 256)

theorem seq_add (v n a b : Nat) : seq v n (a + b) = seq v n a ++ seq v (n + 2 * a) b := by
  simp only [seq, List.range_add, List.map_append, List.map_map]
  congr 1
  apply List.map_congr_left
  intro j _
  simp only [Function.comp_apply]
  congr 2
  omega

def namesOf (v : Var) (l : List (Var × Nat)) : List (Var × Nat) := l.filter fun x => x.1 == v

theorem namesOf_append (v : Var) (l m : List (Nat × Nat)) : namesOf v (l ++ m) = namesOf v l ++ namesOf v m := by
  simp [namesOf]

/-- From `s`, the variables `vs` have been numbered `ps`, leaving `s'`. -/
structure Numbered (vs : List Var) (s s' : Names) (ps : List (Var × Nat)) : Prop where
  num : ∀ v, s'.num v = s.num v + 2 * vs.count v
  len : ∀ v, (s'.stk v).length = (s.stk v).length + vs.count v
  names : ∀ v, namesOf v ps = seq v (s.num v) (vs.count v)

theorem numbered_nil (s : Names) : Numbered [] s s [] := ⟨by simp, by simp, by simp [namesOf, seq]⟩

theorem numbered_append {vs ws : List Nat} {s s' s'' : Names} {ps qs : List (Nat × Nat)} (h1 : Numbered vs s s' ps)
    (h2 : Numbered ws s' s'' qs) : Numbered (vs ++ ws) s s'' (ps ++ qs) := by
  refine ⟨fun v => ?_, fun v => ?_, fun v => ?_⟩
  · rw [h2.num, h1.num, List.count_append]; omega
  · rw [h2.len, h1.len, List.count_append]; omega
  · rw [namesOf_append, h1.names, h2.names, List.count_append, seq_add, h1.num]

theorem newNumber_numbered {s : Names} {v : Var} {r : Names × Nat} (h : newNumber s v = some r) :
    Numbered [v] s r.1 [(v, r.2 % 256)] := by
  simp only [newNumber] at h
  split at h
  · simp at h
  · simp only [Option.some.injEq] at h
    subst h
    refine ⟨fun x => ?_, fun x => ?_, fun x => ?_⟩
    · by_cases hx : x = v
      · subst hx; simp [upd]
      · have : [v].count x = 0 := List.count_eq_zero.mpr (by simpa using hx)
        simp [upd, hx, this]
    · by_cases hx : x = v
      · subst hx; simp [upd]
      · have : [v].count x = 0 := List.count_eq_zero.mpr (by simpa using hx)
        simp [upd, hx, this]
    · by_cases hx : x = v
      · subst hx; simp [namesOf, seq]
      · have : [v].count x = 0 := List.count_eq_zero.mpr (by simpa using hx)
        have hv : ¬ v = x := fun e => hx e.symm
        simp [namesOf, seq, this, hv]

theorem namePhis_numbered : ∀ (vs : List Nat) (s : Names) (r : Names × List (Nat × Nat)), namePhis s vs = some r →
    Numbered vs s r.1 r.2 := by
  intro vs
  induction vs with
  | nil =>
    intro s r h
    simp only [namePhis, Option.some.injEq] at h
    subst h
    exact numbered_nil s
  | cons v vs ih =>
    intro s r h
    simp only [namePhis, Option.bind_eq_some_iff] at h
    obtain ⟨q, h1, h2⟩ := h
    split at h2
    · rename_i hlt
      simp only [Option.bind_eq_some_iff, Option.some.injEq] at h2
      obtain ⟨t, h3, h4⟩ := h2
      subst h4
      have := numbered_append (newNumber_numbered h1) (ih _ _ h3)
      rwa [Nat.mod_eq_of_lt (by omega)] at this
    · simp at h2

theorem nameDefs_numbered : ∀ (vs : List Nat) (s : Names) (r : Names × List (Nat × Nat)), nameDefs s vs = some r →
    Numbered vs s r.1 r.2 := by
  intro vs
  induction vs with
  | nil =>
    intro s r h
    simp only [nameDefs, Option.some.injEq] at h
    subst h
    exact numbered_nil s
  | cons v vs ih =>
    intro s r h
    simp only [nameDefs, Option.bind_eq_some_iff] at h
    obtain ⟨q, h1, h2⟩ := h
    split at h2
    · simp only [Option.bind_eq_some_iff, Option.some.injEq] at h2
      obtain ⟨t, h3, h4⟩ := h2
      subst h4
      exact numbered_append (newNumber_numbered h1) (ih _ _ h3)
    · simp at h2

theorem nameOps_numbered : ∀ (os : List Op) (s : Names) (r : Names × List ROp), nameOps s os = some r →
    Numbered (os.flatMap (·.defs)) s r.1 (r.2.flatMap (·.defs)) := by
  intro os
  induction os with
  | nil =>
    intro s r h
    simp only [nameOps, Option.some.injEq] at h
    subst h
    exact numbered_nil s
  | cons o os ih =>
    intro s r h
    simp only [nameOps, Option.bind_eq_some_iff, Option.some.injEq] at h
    obtain ⟨us, h1, ds, h2, q, h3, h4⟩ := h
    subst h4
    rw [List.flatMap_cons, List.flatMap_cons]
    exact numbered_append (nameDefs_numbered _ _ _ h2) (ih _ _ h3)

/-- The names a block defines in the result. -/
def outNames (O : Out) (b : Blk) : List (Var × Nat) := O.phis b ++ (O.ops b).flatMap (·.defs)

theorem nameBlock_numbered {c : Cfg} {phis : Nat → List Nat} {s : Names} {b : Blk} {r : Names × List (Nat × Nat) × List ROp}
    (h : nameBlock c phis s b = some r) : Numbered (blockDefs c phis b) s r.1 (r.2.1 ++ r.2.2.flatMap (·.defs)) := by
  simp only [nameBlock, Option.bind_eq_some_iff, Option.some.injEq] at h
  obtain ⟨p, p1, o, o1, e⟩ := h
  subst e
  exact numbered_append (namePhis_numbered _ _ _ p1) (nameOps_numbered _ _ _ o1)

/-! Arguments -/

theorem nameArgs_only {nm : Names} {s : Blk} {i : Nat} : ∀ (vs : List Nat) (a a' : Nat → Nat → Nat → Option Nat),
    nameArgs nm s i vs a = some a' → ∀ s' v' i', a' s' v' i' ≠ a s' v' i' → s' = s ∧ i' = i := by
  intro vs
  induction vs with
  | nil =>
    intro a a' h s' v' i' hne
    simp only [nameArgs, Option.some.injEq] at h
    subst h
    exact absurd rfl hne
  | cons v vs ih =>
    intro a a' h s' v' i' hne
    simp only [nameArgs] at h
    cases ha : a s v i with
    | some k => simp [ha] at h
    | none =>
      cases hs : nm.stk v with
      | nil => simp [ha, hs] at h
      | cons k ks =>
        simp only [ha, hs] at h
        by_cases he : s' = s ∧ v' = v ∧ i' = i
        · exact ⟨he.1, he.2.2⟩
        · refine ih _ _ h s' v' i' ?_
          simp only [setArg, he, if_false]
          exact hne

theorem nameSuccs_only {c : Cfg} {phis : Nat → List Nat} {nm : Names} {b : Blk} : ∀ (ss : List Nat)
    (a a' : Nat → Nat → Nat → Option Nat), nameSuccs c phis nm b ss a = some a' →
    ∀ s v i, a' s v i ≠ a s v i → s ∈ ss ∧ phiIndex (c.preds s) b = some i := by
  intro ss
  induction ss with
  | nil =>
    intro a a' h s v i hne
    simp only [nameSuccs, Option.some.injEq] at h
    subst h
    exact absurd rfl hne
  | cons t ss ih =>
    intro a a' h s v i hne
    simp only [nameSuccs] at h
    cases hp : phis t with
    | nil =>
      simp only [hp] at h
      obtain ⟨i1, i2⟩ := ih _ _ h s v i hne
      exact ⟨List.mem_cons_of_mem _ i1, i2⟩
    | cons v' vs =>
      simp only [hp] at h
      cases hi : phiIndex (c.preds t) b with
      | none => simp [hi] at h
      | some j =>
        simp only [hi, Option.bind_eq_some_iff] at h
        obtain ⟨a1, h1, h2⟩ := h
        by_cases hne' : a1 s v i = a s v i
        · obtain ⟨i1, i2⟩ := ih _ _ h2 s v i (by rw [hne']; exact hne)
          exact ⟨List.mem_cons_of_mem _ i1, i2⟩
        · obtain ⟨rfl, rfl⟩ := nameArgs_only _ _ _ h1 s v i hne'
          exact ⟨List.mem_cons_self, hi⟩

/-! The walk -/

/-- The definitions in the blocks of `l`. -/
def defsIn (c : Cfg) (phis : Blk → List Var) (l : List Blk) : List Var := l.flatMap (blockDefs c phis)

structure Tally (c : Cfg) (phis : Blk → List Var) (l : List Blk) (st st' : Names × Out) : Prop where
  num : ∀ v, st'.1.num v = st.1.num v + 2 * (defsIn c phis l).count v
  low : ∀ v, (st.1.stk v).length ≤ (st'.1.stk v).length
  high : ∀ v, (st'.1.stk v).length ≤ (st.1.stk v).length + (defsIn c phis l).count v
  same : ∀ x, ¬ x ∈ l → outNames st'.2 x = outNames st.2 x
  names : ∀ v, namesOf v (l.flatMap (outNames st'.2)) = seq v (st.1.num v) ((defsIn c phis l).count v)
  args : ∀ s v i, st'.2.args s v i ≠ st.2.args s v i → ∃ x ∈ l, phiIndex (c.preds s) x = some i

theorem flatMap_congr' {α β : Type} {f g : α → List β} : ∀ {l : List α}, (∀ x ∈ l, f x = g x) → l.flatMap f = l.flatMap g := by
  intro l
  induction l with
  | nil => intro _; rfl
  | cons a l ih =>
    intro h
    rw [List.forall_mem_cons] at h
    rw [List.flatMap_cons, List.flatMap_cons, h.1, ih h.2]

theorem tally_trans {c : Cfg} {phis : Nat → List Nat} {l m : List Nat} {st st' st'' : Names × Out}
    (h1 : Tally c phis l st st') (h2 : Tally c phis m st' st'') (hd : ∀ x ∈ l, ¬ x ∈ m) : Tally c phis (l ++ m) st st'' := by
  have hc : ∀ v, (defsIn c phis (l ++ m)).count v = (defsIn c phis l).count v + (defsIn c phis m).count v := by
    intro v
    rw [defsIn, List.flatMap_append, List.count_append]
    rfl
  refine ⟨fun v => ?_, fun v => ?_, fun v => ?_, fun x hx => ?_, fun v => ?_, fun s v i hne => ?_⟩
  · rw [h2.num, h1.num, hc]; omega
  · have := h1.low v
    have := h2.low v
    omega
  · have := h1.high v
    have := h2.high v
    rw [hc]
    omega
  · simp only [List.mem_append, not_or] at hx
    rw [h2.same x hx.2, h1.same x hx.1]
  · rw [List.flatMap_append, namesOf_append, h2.names, h1.num, hc, seq_add,
      flatMap_congr' (f := outNames st''.2) (g := outNames st'.2) (fun x hx => h2.same x (hd x hx)), h1.names]
  · by_cases hne' : st'.2.args s v i = st.2.args s v i
    · obtain ⟨x, hx, hp⟩ := h2.args s v i (by rw [hne']; exact hne)
      exact ⟨x, List.mem_append_right _ hx, hp⟩
    · obtain ⟨x, hx, hp⟩ := h1.args s v i hne'
      exact ⟨x, List.mem_append_left _ hx, hp⟩

theorem visit_sub {c : Cfg} (w : Wf c) {idom : Nat → Option Nat} (hi : IdomOk c idom) : ∀ (n : Nat) (b : Blk), b < c.length →
    (∀ x ∈ visit (domees c idom) n b, Sub c b x) ∧ (visit (domees c idom) n b).Nodup := by
  intro n
  induction n with
  | zero => intro b _; simp [visit]
  | succ n ih =>
    intro b hb
    have hch : ∀ y ∈ domees c idom b, (∀ x ∈ visit (domees c idom) n y, Sub c y x) ∧ (visit (domees c idom) n y).Nodup := by
      intro y hy
      exact ih y ((hi y b).mp ((mem_domees hi).mp hy)).1
    have hsub : ∀ (ys : List Nat), (∀ y ∈ ys, y ∈ domees c idom b) → ys.Nodup →
        (∀ x ∈ ys.flatMap (visit (domees c idom) n), ∃ y ∈ ys, Sub c y x) ∧ (ys.flatMap (visit (domees c idom) n)).Nodup := by
      intro ys
      induction ys with
      | nil => intro _ _; simp
      | cons y ys ihy =>
        intro hy hn
        rw [List.forall_mem_cons] at hy
        rw [List.nodup_cons] at hn
        obtain ⟨a1, a2⟩ := ihy hy.2 hn.2
        rw [List.flatMap_cons]
        refine ⟨fun x hx => ?_, List.nodup_append.mpr ⟨(hch y hy.1).2, a2, ?_⟩⟩
        · rcases List.mem_append.mp hx with h | h
          · exact ⟨y, List.mem_cons_self, (hch y hy.1).1 x h⟩
          · obtain ⟨z, hz, hs⟩ := a1 x h
            exact ⟨z, List.mem_cons_of_mem _ hz, hs⟩
        · rintro x hx z hz rfl
          obtain ⟨u, hu, hs⟩ := a1 x hz
          exact hn.1 (sub_disjoint w hi ((mem_domees hi).mp hy.1) ((mem_domees hi).mp (hy.2 u hu)) ((hch y hy.1).1 x hx) hs ▸ hu)
    obtain ⟨a1, a2⟩ := hsub (domees c idom b) (fun y hy => hy) (List.Nodup.sublist List.filter_sublist List.nodup_range')
    simp only [visit]
    refine ⟨?_, ?_⟩
    · rw [List.forall_mem_cons]
      refine ⟨⟨hb, dom_refl b⟩, fun x hx => ?_⟩
      obtain ⟨y, hy, hs⟩ := a1 x hx
      exact sub_of_child hi ((mem_domees hi).mp hy) hs
    · rw [List.nodup_cons]
      refine ⟨fun hm => ?_, a2⟩
      obtain ⟨y, hy, hs⟩ := a1 b hm
      exact not_sub_child w hi ((mem_domees hi).mp hy) hs

theorem tally_fold {c : Cfg} {phis : Nat → List Nat} {f : Names × Out → Nat → Option (Names × Out)} {vis : Nat → List Nat} :
    ∀ (ys : List Nat), (∀ y ∈ ys, ∀ st st', f st y = some st' → Tally c phis (vis y) st st') → (ys.flatMap vis).Nodup →
    ∀ st st', ys.foldlM f st = some st' → Tally c phis (ys.flatMap vis) st st' := by
  intro ys
  induction ys with
  | nil =>
    intro _ _ st st' h
    simp only [List.foldlM_nil, Option.pure_def, Option.some.injEq] at h
    subst h
    exact ⟨by simp [defsIn], by simp, by simp, by simp, by simp [defsIn, namesOf, seq], fun _ _ _ h => absurd rfl h⟩
  | cons y ys ih =>
    intro hf hn st st' h
    rw [List.forall_mem_cons] at hf
    rw [List.flatMap_cons] at hn ⊢
    obtain ⟨n1, n2, n3⟩ := List.nodup_append.mp hn
    simp only [List.foldlM_cons, Option.bind_eq_bind, Option.bind_eq_some_iff] at h
    obtain ⟨st1, h1, h2⟩ := h
    exact tally_trans (hf.1 _ _ h1) (ih hf.2 n2 _ _ h2) fun x hx hm => n3 x hx x hm rfl

theorem tally_block {c : Cfg} {phis : Nat → List Nat} {b : Blk} {st : Names × Out} {r : Names × List (Nat × Nat) × List ROp}
    {a : Nat → Nat → Nat → Option Nat} (h1 : nameBlock c phis st.1 b = some r)
    (h2 : nameSuccs c phis r.1 b (c.succs b) st.2.args = some a) (fi fo : Nat → Nat → Option Nat) :
    Tally c phis [b] st (r.1, (⟨upd st.2.phis b r.2.1, a, upd st.2.ops b r.2.2, fi, fo⟩ : Out)) := by
  obtain ⟨n1, n2, n3⟩ := nameBlock_numbered h1
  have hd : defsIn c phis [b] = blockDefs c phis b := by simp [defsIn]
  refine ⟨fun v => by rw [hd]; exact n1 v, fun v => by simp only; rw [n2 v]; omega, fun v => by rw [hd]; simp only; rw [n2 v]; omega,
    fun x hx => ?_, fun v => ?_, fun s v i hne => ?_⟩
  · have : ¬ x = b := by simpa using hx
    simp [outNames, upd, this]
  · rw [hd, ← n3 v]
    simp [outNames, upd]
  · exact ⟨b, by simp, (nameSuccs_only _ _ _ h2 s v i hne).2⟩

theorem tally_of {c : Cfg} (w : Wf c) {idom : Nat → Option Nat} (hi : IdomOk c idom) {phis : Nat → List Nat} {G : List Nat} :
    ∀ (n : Nat) (b : Blk), b < c.length → ∀ st st', renameBlock c phis G (domees c idom) n b st = some st' →
      Tally c phis (visit (domees c idom) n b) st st' := by
  intro n
  induction n with
  | zero => intro b _ st st' h; simp [renameBlock] at h
  | succ n ih =>
    intro b hb st st' h
    have hnd := (visit_sub w hi (n + 1) b hb).2
    simp only [visit] at hnd ⊢
    simp only [renameBlock, Option.bind_eq_some_iff] at h
    obtain ⟨r, h1, a, h2, q, h3, h4⟩ := h
    simp only [Option.some.injEq] at h4
    subst h4
    have t1 := tally_block h1 h2 (upd st.2.inn b fun v => (st.1.stk v).head?) (upd st.2.out b fun v => (r.1.stk v).head?)
    rw [List.nodup_cons] at hnd
    have t2 := tally_fold (c := c) (phis := phis) (f := fun st d => renameBlock c phis G (domees c idom) n d st)
      (vis := visit (domees c idom) n) (domees c idom b)
      (fun y hy st st' h => ih y ((hi y b).mp ((mem_domees hi).mp hy)).1 st st' h) hnd.2 _ _ h3
    have t3 := tally_trans t1 t2 (by
      intro x hx hm
      rw [List.mem_singleton] at hx
      exact hnd.1 (hx ▸ hm))
    rw [List.singleton_append] at t3
    have hlen := (nameBlock_numbered h1).len
    refine ⟨t3.num, fun v => ?_, fun v => ?_, t3.same, t3.names, t3.args⟩
    · simp only [popDefs_spec]
      have := t2.low v
      simp only at this
      have := hlen v
      split
      · rw [List.length_drop]; omega
      · omega
    · simp only [popDefs_spec]
      have := t3.high v
      split
      · rw [List.length_drop]; omega
      · exact this

theorem visit_all {c : Cfg} (w : Wf c) {idom : Nat → Option Nat} (hi : IdomOk c idom) {phis : Nat → List Nat} {G : List Nat} :
    ∀ (n : Nat) (b : Blk), b < c.length → ∀ st st', renameBlock c phis G (domees c idom) n b st = some st' →
      ∀ x, Sub c b x → x ∈ visit (domees c idom) n b := by
  intro n
  induction n with
  | zero => intro b _ st st' h; simp [renameBlock] at h
  | succ n ih =>
    intro b hb st st' h x hx
    simp only [renameBlock, Option.bind_eq_some_iff] at h
    obtain ⟨r, h1, a, h2, q, h3, h4⟩ := h
    simp only [visit]
    rcases sub_cases w hi hx with rfl | ⟨y, hy, hs⟩
    · exact List.mem_cons_self
    · refine List.mem_cons_of_mem _ (List.mem_flatMap.mpr ⟨y, (mem_domees hi).mpr hy, ?_⟩)
      have : ∀ (ys : List Nat) (st st' : Names × Out), y ∈ ys →
          ys.foldlM (fun st d => renameBlock c phis G (domees c idom) n d st) st = some st' →
          ∃ s s', renameBlock c phis G (domees c idom) n y s = some s' := by
        intro ys
        induction ys with
        | nil => intro _ _ h; simp at h
        | cons z ys ihz =>
          intro st st' hm h
          simp only [List.foldlM_cons, Option.bind_eq_bind, Option.bind_eq_some_iff] at h
          obtain ⟨st1, h1, h2⟩ := h
          rcases List.mem_cons.mp hm with rfl | hm
          · exact ⟨_, _, h1⟩
          · exact ihz _ _ hm h2
      obtain ⟨s, s', hr⟩ := this _ _ _ ((mem_domees hi).mpr hy) h3
      exact ih y ((hi y b).mp hy).1 s s' hr x hs

/-! ### Single assignment -/

theorem nodup_of_namesOf {l : List (Nat × Nat)} (h : ∀ v, (namesOf v l).Nodup) : l.Nodup := by
  induction l with
  | nil => simp
  | cons x l ih =>
    rw [List.nodup_cons]
    refine ⟨fun hx => ?_, ih fun v => ?_⟩
    · have := h x.1
      simp only [namesOf, List.filter_cons, beq_self_eq_true, if_true, List.nodup_cons, List.mem_filter] at this
      exact this.1 ⟨hx, trivial⟩
    · have := h v
      simp only [namesOf, List.filter_cons] at this
      split at this
      · exact (List.nodup_cons.mp this).2
      · exact this

theorem seq_nodup {v m : Nat} (h : m ≤ 128) : (seq v 0 m).Nodup := by
  rw [seq, List.Nodup, List.pairwise_map]
  refine List.Pairwise.imp_of_mem ?_ List.nodup_range
  intro a b ha hb hne he
  rw [List.mem_range] at ha hb
  simp only [Prod.mk.injEq, true_and] at he
  omega

theorem nodup_reorder {f : Nat → List (Nat × Nat)} {l m : List Nat} (hm : m.Nodup) (hs : ∀ x ∈ m, x ∈ l)
    (h : (l.flatMap f).Nodup) : (m.flatMap f).Nodup := by
  have key : ∀ l : List Nat, (l.flatMap f).Nodup → (∀ x ∈ l, (f x).Nodup) ∧
      ∀ x ∈ l, ∀ y ∈ l, x ≠ y → ∀ a ∈ f x, ¬ a ∈ f y := by
    intro l
    induction l with
    | nil => intro _; simp
    | cons z l ih =>
      intro h
      rw [List.flatMap_cons] at h
      obtain ⟨h1, h2, h3⟩ := List.nodup_append.mp h
      obtain ⟨i1, i2⟩ := ih h2
      refine ⟨?_, ?_⟩
      · rw [List.forall_mem_cons]; exact ⟨h1, i1⟩
      · intro x hx y hy hne a ha hb
        rcases List.mem_cons.mp hx with hx' | hx'
        · rcases List.mem_cons.mp hy with hy' | hy'
          · exact hne (hx'.trans hy'.symm)
          · exact h3 a (hx' ▸ ha) a (List.mem_flatMap.mpr ⟨y, hy', hb⟩) rfl
        · rcases List.mem_cons.mp hy with hy' | hy'
          · exact h3 a (hy' ▸ hb) a (List.mem_flatMap.mpr ⟨x, hx', ha⟩) rfl
          · exact i2 x hx' y hy' hne a ha hb
  obtain ⟨k1, k2⟩ := key l h
  clear h
  induction m with
  | nil => simp
  | cons z m ih =>
    rw [List.nodup_cons] at hm
    rw [List.forall_mem_cons] at hs
    rw [List.flatMap_cons]
    refine List.nodup_append.mpr ⟨k1 z hs.1, ih hm.2 hs.2, ?_⟩
    rintro a ha b hb rfl
    obtain ⟨y, hy, hay⟩ := List.mem_flatMap.mp hb
    exact k2 z hs.1 y (hs.2 y hy) (fun e => hm.1 (e ▸ hy)) a ha hay

end Nature.Ssa
