/-
The properties of the control flow graph.
-/
import Verif.Cfg.Build
import Verif.Cfg.Check
namespace Nature.Cfg

/-! ### Putting the passes together -/

theorem Good.consistent {t : Nat} {g : Graph} (hg : Good t g) (hr : ∀ b ∈ g, Reach g b.name) : Consistent g := by
  refine ⟨hg.nodup, fun b hb => ?_, fun b hb => ⟨(hg.shape b hb).nsuccs, fun s => ?_⟩, hg.closed, fun b hb => ⟨hg.npreds b hb, hg.edge b hb⟩, hr⟩
  · have := hg.shape b hb
    cases this with
    | @stop n mid ps h => exact ⟨mid, [], by simp, h, .inl rfl⟩
    | @one n l mid ps h => exact ⟨mid, [.bal l], rfl, h, .inr (.inl ⟨l, rfl⟩)⟩
    | @two n l l' c mid ps ss h a e => exact ⟨mid, [.br c l', .bal l], rfl, h, .inr (.inr ⟨c, l, l', a, rfl⟩)⟩
  · constructor
    · intro hs
      have := hg.shape b hb
      cases this with
      | stop h => simp at hs
      | @one n l mid ps h =>
        simp only [List.mem_singleton] at hs
        subst hs
        exact ⟨.bal s, by simp, rfl⟩
      | @two n l l' c mid ps ss h a e =>
        have : s = l ∨ s = l' := by
          rcases e with rfl | rfl
          · simpa using hs
          · simpa [or_comm] using hs
        rcases this with rfl | rfl
        · exact ⟨.bal s, by simp, rfl⟩
        · exact ⟨.br c s, by simp, rfl⟩
    · rintro ⟨i, hi, e⟩
      have := (hg.shape b hb).jumps (P := (· ∈ b.succs)) (fun _ h => h) i hi
      cases i with
      | bal l => obtain rfl := Option.some.inj e; exact this
      | br c l => obtain rfl := Option.some.inj e; exact this
      | label l => cases e
      | op c => cases e

theorem mergeLoop_entry {keep : Nat → Bool} {t : Nat} : ∀ (n : Nat) {g : Graph}, Good t g → (∀ b ∈ g, Reach g b.name) →
    (∀ b, g.head? = some b → b.preds = []) → ∀ b, (mergeLoop keep n g).head? = some b → b.preds = [] := by
  intro n
  induction n with
  | zero => intro g _ _ h; exact h
  | succ n ih =>
    intro g hg hr h
    rw [mergeLoop]
    have hone := merge_good (keep := keep) 1 hg hr
    rw [mergeLoop] at hone
    cases hm : mergeOne keep g g with
    | none => exact h
    | some g' =>
      rw [hm] at hone
      simp only [mergeLoop] at hone
      refine ih hone.1 hone.2.1 ?_
      obtain ⟨pre, b, next, r, e, hm', rfl⟩ := mergeOne_some hm
      intro x hx
      rw [mergeInto_eq hg (by rw [e]; simp)] at hx
      have hne : ∃ y r', g = y :: r' ∧ y.name ≠ next.name := by
        have hd := hg.nodup
        rw [e] at hd ⊢
        cases pre with
        | nil => exact ⟨b, _, rfl, by simp at hd; exact hd.1.1⟩
        | cons y pre => exact ⟨y, _, rfl, by simp at hd; exact hd.1.2.2.1⟩
      obtain ⟨y, r', rfl, hy⟩ := hne
      rw [List.filter_cons] at hx
      simp only [hy, ne_eq, not_false_eq_true, decide_true, if_true, List.map_cons, List.head?_cons, Option.some.injEq] at hx
      subst hx
      have := h y rfl
      simp [mergedBlock, this]

/-- The graph before edges are split. -/
def merged (keep : Label → Bool) (t : Nat) (code : List Ins) : Option (Graph × Nat) :=
  (blocks t code).bind fun q => (edges q.1).bind fun g => (prune g).map fun g => (merge keep g, q.2)

theorem cfg_eq (keep : Nat → Bool) (t : Nat) (code : List Ins) :
    cfg keep t code = (merged keep t code).bind fun m => (splitAll (m.1.map (·.name)) m.2 m.1).map (·.1) := by
  unfold cfg merged
  cases blocks t code with
  | none => rfl
  | some q =>
    simp only [Option.bind_some]
    cases edges q.1 with
    | none => rfl
    | some g =>
      simp only [Option.bind_some]
      cases prune g <;> rfl

theorem merged_good {keep : Nat → Bool} {t : Nat} {code : List Ins} (hok : CodeOk t code) {m : Graph} {t' : Nat}
    (h : merged keep t code = some (m, t')) : Good t' m ∧ (∀ b ∈ m, Reach m b.name) ∧
    Same (codeJumps code) code (graphJumps m) (entryOps m) ∧ m.head?.map (·.name) = (labels code).head? ∧
    ((∀ l, (labels code).head? = some l → ∀ i ∈ code, goes i ≠ some l) → ∀ b, m.head? = some b → b.preds = []) := by
  unfold merged at h
  obtain ⟨⟨bs, t1⟩, h1, h⟩ := Option.bind_eq_some_iff.mp h
  obtain ⟨g, h2, h⟩ := Option.bind_eq_some_iff.mp h
  obtain ⟨g1, h3, h⟩ := Option.map_eq_some_iff.mp h
  simp only [Prod.mk.injEq] at h
  obtain ⟨rfl, rfl⟩ := h
  obtain ⟨a1, a2, a3, a4⟩ := build_good hok h1 h2
  obtain ⟨b1, b2, b3, b4, b5⟩ := prune_good a1 h3
  obtain ⟨c1, c2, c3, c4⟩ := merge_good (keep := keep) g1.length b1 b2
  refine ⟨c1, c2, (a2.trans b3).trans c3, (c4.trans b4).trans a3, fun hno => ?_⟩
  refine mergeLoop_entry g1.length b1 b2 ?_
  intro b hb
  have hbm : b ∈ g1 := List.mem_of_head? hb
  have hname : (labels code).head? = some b.name := by rw [← a3, ← b4, hb]; rfl
  obtain ⟨x, hx, e, hsub⟩ := b5 b hbm
  rw [List.eq_nil_iff_forall_not_mem]
  intro p hp
  obtain ⟨y, hy, _, hs⟩ := (a1.edge x hx p).mp (hsub p hp)
  rw [← e] at hs
  rcases a4 y hy _ hs with ⟨i, hi, e'⟩ | h | h
  · exact hno _ hname i hi e'
  · have hn := hok.nodup
    cases hl : labels code with
    | nil => rw [hl] at hname; simp at hname
    | cons z r =>
      rw [hl] at hname h hn
      simp only [List.head?_cons, Option.some.injEq] at hname
      simp only [List.tail_cons] at h
      rw [List.nodup_cons, hname] at hn
      exact hn.1 h
  · have hm : b.name ∈ labels code := List.mem_of_head? hname
    obtain ⟨u, v, e'⟩ := mem_labels.mp hm
    have := hok.fresh (.label b.name) (by rw [e']; simp)
    simp only at this
    omega

theorem cfg_good {keep : Nat → Bool} {t : Nat} {code : List Ins} (hok : CodeOk t code) {g : Graph}
    (h : cfg keep t code = some g) : ∃ t', Good t' g ∧ (∀ b ∈ g, Reach g b.name) ∧
    Same (codeJumps code) code (graphJumps g) (entryOps g) ∧ g.head?.map (·.name) = (labels code).head? ∧
    ((∀ l, (labels code).head? = some l → ∀ i ∈ code, goes i ≠ some l) → ∀ b, g.head? = some b → b.preds = []) := by
  rw [cfg_eq] at h
  obtain ⟨⟨m, t1⟩, h1, h⟩ := Option.bind_eq_some_iff.mp h
  obtain ⟨a1, a2, a3, a4, a5⟩ := merged_good hok h1
  obtain ⟨g', t', b1, b2, b3, b4, b5, b6, _, _⟩ := splitAll_spec (m.map (·.name)) t1 m a1 a2
    (fun l hl => by obtain ⟨y, hy, e⟩ := List.mem_map.mp hl; exact ⟨y, hy, e⟩) a1.nodup
  dsimp only at h
  rw [b1] at h
  obtain rfl := Option.some.inj h
  refine ⟨t', b2, b3, a3.trans b4, b5.trans a4, fun hno b hb => ?_⟩
  cases hm : m with
  | nil =>
    rw [hm] at b5
    simp only [hb, List.head?_nil] at b5
    cases b5
  | cons e r =>
    have hem : e ∈ m := by rw [hm]; simp
    obtain ⟨e', he', n1, n2, _⟩ := b6.old e hem
    have : b.name = e.name := by
      rw [hm, hb] at b5
      simpa using b5
    have := same_name b2.nodup he' (List.mem_of_head? hb) (n1.trans this.symm)
    subst this
    rw [a5 hno e (by rw [hm]; rfl)] at n2
    exact List.eq_nil_of_length_eq_zero n2

/-! ### C65: the graph does what the code does -/

/-- C65: whatever the operations mean, the graph passes through the same states as the code, and ends with the same ones. -/
theorem C65_same {keep : Nat → Bool} {t : Nat} {code : List Ins} (hok : CodeOk t code) {g : Graph} (h : cfg keep t code = some g)
    {W : Type} (S : Sem W) (w w' : W) :
    (Visits (codeJumps code) S code w w' ↔ Visits (graphJumps g) S (entryOps g) w w') ∧
    (Ends (codeJumps code) S code w w' ↔ Ends (graphJumps g) S (entryOps g) w w') := by
  obtain ⟨_, _, _, h, _⟩ := cfg_good hok h
  exact h W S w w'

/-- C65: the graph is built whenever the code starts with a label, does not end with a branch and all labels that it goes to are
there. -/
theorem C65_succeeds (keep : Nat → Bool) {t l : Nat} {r : List Ins} (hok : CodeOk t (.label l :: r))
    (hend : ∀ i, r.getLast? = some i → goes i = none)
    (hex : ∀ i ∈ .label l :: r, ∀ x, goes i = some x → .label x ∈ .label l :: r) : ∃ g, cfg keep t (.label l :: r) = some g := by
  obtain ⟨bs, t', g, h1, h2⟩ := blocks_some hok
    (fun i hi => by have := hend i hi; cases i <;> simp [goes, Ins.branch] at this ⊢)
    (fun i hi x hx => by
      have := hex i (by simp [hi]) x hx
      exact mem_labels.mpr (List.append_of_mem this))
  obtain ⟨a1, _, a3, _⟩ := build_good hok h1 h2
  have hne : g ≠ [] := by
    rintro rfl
    simp [labels] at a3
  obtain ⟨_, _, _, _, h3⟩ := prune_eq a1 hne
  obtain ⟨b1, b2, _⟩ := prune_good a1 h3
  obtain ⟨c1, c2, _⟩ := merge_good (keep := keep) _ b1 b2
  obtain ⟨g', t'', h4, _⟩ := splitAll_spec _ _ _ c1 c2
    (fun l hl => by obtain ⟨y, hy, e⟩ := List.mem_map.mp hl; exact ⟨y, hy, e⟩) c1.nodup
  refine ⟨g', ?_⟩
  unfold cfg
  rw [h1, Option.bind_some, h2, Option.bind_some, h3, Option.bind_some]
  unfold merge
  rw [h4]
  rfl

/-- A loop with a branch out of it, dead code and two ways to the end. -/
def sample : List Ins :=
  [.label 0, .op 1, .label 1, .op 2, .br 0 2, .op 3, .br 1 1, .bal 3, .bal 2, .op 4, .label 2, .op 5, .label 3, .op 6]

theorem sample_ok : CodeOk 10 sample := ⟨by decide +kernel, by simp [sample]⟩

example : ∃ g, cfg (· == 3) 10 sample = some g := C65_succeeds _ sample_ok (by decide +kernel) (by decide +kernel)

example : (cfg (· == 3) 10 sample).map (·.map fun b => (b.name, b.ops, b.preds, b.succs)) = some
    [(0, [.label 0, .op 1, .bal 1], [], [1]),
     (1, [.label 1, .op 2, .br 0 2, .bal 10], [0, 13], [10, 2]),
     (10, [.label 10, .op 3, .br 1 13, .bal 11], [1], [11, 13]),
     (11, [.label 11, .bal 3], [10], [3]),
     (2, [.label 2, .op 5, .bal 3], [1], [3]),
     (3, [.label 3, .op 6], [11, 2], []),
     (13, [.label 13, .bal 1], [10], [1])] := by decide +kernel

/-! ### C66: the graph is what it says it is -/

/-- C66: names differ, edges are where the jumps are, every block is reached; the first block is where the code starts, and
nothing leads to it unless there is a jump to it in the code. -/
theorem C66_consistent {keep : Nat → Bool} {t : Nat} {code : List Ins} (hok : CodeOk t code) {g : Graph}
    (h : cfg keep t code = some g) : Consistent g ∧ g.head?.map (·.name) = (labels code).head? ∧
    ((∀ l, (labels code).head? = some l → ∀ i ∈ code, goes i ≠ some l) → ∀ b, g.head? = some b → b.preds = []) := by
  obtain ⟨_, h1, h2, _, h3, h4⟩ := cfg_good hok h
  exact ⟨h1.consistent h2, h3, h4⟩

example : ∃ g, cfg (· == 3) 10 sample = some g ∧ Consistent g ∧ g.length = 7 := by
  obtain ⟨g, h⟩ := C65_succeeds (· == 3) sample_ok (by decide +kernel) (by decide +kernel)
  have h' : (cfg (· == 3) 10 sample).map (·.length) = some 7 := by decide +kernel
  have h2 : cfg (· == 3) 10 sample = some g := h
  rw [h2] at h'
  exact ⟨g, h, (C66_consistent sample_ok h).1, Option.some.inj h'⟩

/-- C66, in part: an edge from a block with several successors to a block with several predecessors remains just if, in the graph
before edges are split, two such edges come from neighbouring predecessors of a block.  No such edge should remain. -/
theorem C66_critical_partial {keep : Nat → Bool} {t : Nat} {code : List Ins} (hok : CodeOk t code) {g m : Graph} {t' : Nat}
    (h : cfg keep t code = some g) (hm : merged keep t code = some (m, t')) :
    (∃ p b, Critical g p b) ↔ ∃ b ∈ m, ∃ p q, Adjacent b.preds p q ∧ 1 < (succsOf m p).length ∧ 1 < (succsOf m q).length := by
  obtain ⟨a1, a2, _⟩ := merged_good hok hm
  rw [cfg_eq, hm, Option.bind_some] at h
  obtain ⟨⟨g', t''⟩, h1, h⟩ := Option.map_eq_some_iff.mp h
  simp only at h
  subst h
  rw [critical_iff a1 a2 h1]
  unfold forks
  simp only [decide_eq_true_eq]

/-- Nothing remains in a given graph. -/
def noneCritical (g : Graph) : Bool :=
  g.all fun p => g.all fun b => !(b.name ∈ p.succs && 1 < p.succs.length && 1 < b.preds.length)

theorem not_critical {g : Graph} (h : noneCritical g = true) : ¬ ∃ p b, Critical g p b := by
  rintro ⟨p, b, hp, hb, h1, h2, h3⟩
  have := List.all_eq_true.mp (List.all_eq_true.mp h p hp) b hb
  simp [h1, h2, h3] at this

/-- In the sample the edge back to 1 is split, and nothing remains. -/
example : ∃ g, cfg (· == 3) 10 sample = some g ∧ ¬ ∃ p b, Critical g p b := by
  obtain ⟨g, h⟩ := C65_succeeds (· == 3) sample_ok (by decide +kernel) (by decide +kernel)
  have h' : (cfg (· == 3) 10 sample).map noneCritical = some true := by decide +kernel
  have h2 : cfg (· == 3) 10 sample = some g := h
  rw [h2] at h'
  exact ⟨g, h, not_critical (Option.some.inj h')⟩

/-- A match case with two conditions: `1 | 2 -> …`. -/
def twoConditions : List Ins := [.label 0, .br 0 3, .br 1 3, .op 7, .label 3, .op 8]

/-- C66: the second of two such edges into the same block is not split. -/
theorem C66_critical_counterexample : CodeOk 4 twoConditions ∧
    ∃ g, cfg (fun _ => false) 4 twoConditions = some g ∧ ∃ p b, Critical g p b ∧ p.name = 4 ∧ b.name = 3 := by
  refine ⟨⟨by decide +kernel, by simp [twoConditions]⟩, ?_⟩
  refine ⟨[⟨0, [.label 0, .br 0 6, .bal 4], [], [4, 6]⟩, ⟨4, [.label 4, .br 1 3, .bal 5], [0], [5, 3]⟩,
    ⟨5, [.label 5, .op 7, .bal 3], [4], [3]⟩, ⟨3, [.label 3, .op 8], [4, 5, 6], []⟩, ⟨6, [.label 6, .bal 3], [0], [3]⟩],
    by decide +kernel, ⟨4, [.label 4, .br 1 3, .bal 5], [0], [5, 3]⟩, ⟨3, [.label 3, .op 8], [4, 5, 6], []⟩, ?_, rfl, rfl⟩
  unfold Critical
  decide +kernel

/-! ### C67: missing returns and missing results -/

/-- C67: a function is reported to lack a return just if its end can be reached from its start without one. -/
theorem C67_return {keep : Nat → Bool} {t : Nat} {code : List Ins} (hok : CodeOk t code) {e : Block} {r : Graph}
    (h : cfg keep t code = some (e :: r)) (rets : Nat → Bool) (fin : Nat) :
    ∃ err seen, returnCheck (e :: r) rets fin ((e :: r).length + 1) e.name [] = some (err, seen) ∧
      (err = true ↔ NoReturnPath (e :: r) rets e.name fin) := by
  obtain ⟨_, hg, _⟩ := cfg_good hok h
  exact returnCheck_iff hg rfl rets fin

/-- Code 5 returns in the sample on one way only: the report is made; were it code 6, it would not be. -/
example : ∃ e r, cfg (· == 3) 10 sample = some (e :: r) ∧ NoReturnPath (e :: r) (· == 5) e.name 3 ∧
    ¬ NoReturnPath (e :: r) (· == 6) e.name 3 := by
  obtain ⟨g, h⟩ := C65_succeeds (· == 3) sample_ok (by decide +kernel) (by decide +kernel)
  have h2 : cfg (· == 3) 10 sample = some g := h
  have hh : (cfg (· == 3) 10 sample).map (fun g => (g.head?.map (·.name), g.length)) = some (some 0, 7) := by decide +kernel
  have h5 : ((cfg (· == 3) 10 sample).bind fun g => returnCheck g (· == 5) 3 8 0 []).map (·.1) = some true := by decide +kernel
  have h6 : ((cfg (· == 3) 10 sample).bind fun g => returnCheck g (· == 6) 3 8 0 []).map (·.1) = some false := by decide +kernel
  rw [h2] at hh h5 h6
  cases g with
  | nil => simp at hh
  | cons e r =>
    simp only [Option.map_some, List.head?_cons, Option.some.injEq, Prod.mk.injEq] at hh
    refine ⟨e, r, h2, ?_, ?_⟩
    · obtain ⟨err, seen, k1, k2⟩ := C67_return sample_ok h2 (· == 5) 3
      rw [hh.1, hh.2] at k1
      simp only [Option.bind_some, k1, Option.map_some, Option.some.injEq] at h5
      exact k2.mp h5
    · obtain ⟨err, seen, k1, k2⟩ := C67_return sample_ok h2 (· == 6) 3
      rw [hh.1, hh.2] at k1
      simp only [Option.bind_some, k1, Option.map_some, Option.some.injEq] at h6
      exact fun hp => by rw [k2.mpr hp] at h6; cases h6

/-- C67, in part: a match reported to lack a result does: there is a way from its start to its end without one.  The other
direction is missing, as it does not hold. -/
theorem C67_match_partial {keep : Nat → Bool} {t : Nat} {code : List Ins} (hok : CodeOk t code) {e : Block} {r : Graph}
    (h : cfg keep t code = some (e :: r)) (M : Marks) (hM : ∀ a e, M.start a = some e → a ≠ e) {n : Nat} {seen : List Nat}
    (hc : retCheck M (e :: r) n e.name none [] = some (true, seen)) : ∃ a b, LacksResult M (e :: r) a b := by
  obtain ⟨_, hg, _⟩ := cfg_good hok h
  exact retCheck_lacks hg M hM (by simp) hc

/-- A match from 1 to 5; operation 10 gives its result, 20 returns.  Case 2 gives no result.  `x` is what follows the match. -/
def matchCode (x : Nat) : List Ins :=
  [.label 0, .op 1, .label 1, .br 0 2, .op 10, .bal 5, .label 2, .op 2, .bal 5, .label 5, .op 3, .op x, .bal 6, .label 6, .op 4]

def matchMarks : Marks where
  start l := if l = 1 then some 5 else none
  gives c := if c = 10 then some 5 else none
  rets c := c == 20

def matchGraph (x : Nat) : Graph :=
  [⟨0, [.label 0, .op 1, .bal 1], [], [1]⟩, ⟨1, [.label 1, .br 0 2, .bal 7], [0], [7, 2]⟩, ⟨7, [.label 7, .op 10, .bal 5], [1], [5]⟩,
   ⟨2, [.label 2, .op 2, .bal 5], [1], [5]⟩, ⟨5, [.label 5, .op 3, .op x, .op 4], [7, 2], []⟩]

/-- With something else after it, the missing result is reported. -/
example : cfg (fun l => l == 1 || l == 5) 7 (matchCode 3) = some (matchGraph 3) ∧
    ((retCheck matchMarks (matchGraph 3) 9 0 none []).map (·.1)) = some true := ⟨by decide +kernel, by decide +kernel⟩

theorem matchGraph_lacks (x : Nat) : LacksResult matchMarks (matchGraph x) 1 5 := by
  refine ⟨rfl, ⟨2, [.label 2, .op 2, .bal 5], [1], [5]⟩, ?_, by simp [matchGraph], by simp⟩
  refine .snoc (p := ⟨1, [.label 1, .br 0 2, .bal 7], [0], [7, 2]⟩) (s := ⟨2, [.label 2, .op 2, .bal 5], [1], [5]⟩)
    (.here (b := ⟨1, [.label 1, .br 0 2, .bal 7], [0], [7, 2]⟩) ?_ ?_) ?_ ?_ ?_ ?_
  · simp [matchGraph]
  · intro c hc; simp at hc
  · simp [matchGraph]
  · simp
  · simp [matchGraph]
  · intro c hc
    simp only [List.mem_cons, List.not_mem_nil, or_false, reduceCtorEq, false_or, Ins.op.injEq] at hc
    subst hc
    exact ⟨by decide, by decide⟩

/-- C67: with a return after the match, it is not. -/
theorem C67_return_after_counterexample : CodeOk 7 (matchCode 20) ∧
    cfg (fun l => l == 1 || l == 5) 7 (matchCode 20) = some (matchGraph 20) ∧ LacksResult matchMarks (matchGraph 20) 1 5 ∧
    (retCheck matchMarks (matchGraph 20) 9 0 none []).map (·.1) = some false :=
  ⟨⟨by decide +kernel, by simp [matchCode]⟩, by decide +kernel, matchGraph_lacks 20, by decide +kernel⟩

/-- A match from 1 to 9 whose only case contains a match from 2 to 8, and gives no result; operation 18 gives the inner one its
result, nothing the outer one. -/
def nestedCode : List Ins :=
  [.label 0, .op 1, .label 1, .op 2, .label 2, .op 18, .bal 8, .label 8, .op 3, .bal 9, .label 9, .op 4]

def nestedMarks : Marks where
  start l := if l = 1 then some 9 else if l = 2 then some 8 else none
  gives c := if c = 18 then some 8 else if c = 19 then some 9 else none
  rets _ := false

def nestedGraph : Graph :=
  [⟨0, [.label 0, .op 1, .bal 1], [], [1]⟩, ⟨1, [.label 1, .op 2, .bal 2], [0], [2]⟩, ⟨2, [.label 2, .op 18, .bal 8], [1], [8]⟩,
   ⟨8, [.label 8, .op 3, .bal 9], [2], [9]⟩, ⟨9, [.label 9, .op 4], [8], []⟩]

theorem nestedGraph_lacks : LacksResult nestedMarks nestedGraph 1 9 := by
  have nr : ∀ b ∈ nestedGraph, NoResult nestedMarks 9 b := by
    intro b hb c hc
    simp only [nestedGraph, List.mem_cons, List.not_mem_nil, or_false] at hb
    rcases hb with rfl | rfl | rfl | rfl | rfl <;>
    · simp only [List.mem_cons, List.not_mem_nil, or_false, reduceCtorEq, false_or, Ins.op.injEq] at hc
      subst hc
      exact ⟨by decide, by decide⟩
  have h1 := NoResultPath.here (M := nestedMarks) (g := nestedGraph) (e := 9) (b := ⟨1, [.label 1, .op 2, .bal 2], [0], [2]⟩)
    (by simp [nestedGraph]) (nr _ (by simp [nestedGraph]))
  have h2 := NoResultPath.snoc (s := ⟨2, [.label 2, .op 18, .bal 8], [1], [8]⟩) h1 (by simp [nestedGraph]) (by simp)
    (by simp [nestedGraph]) (nr _ (by simp [nestedGraph]))
  have h3 := NoResultPath.snoc (s := ⟨8, [.label 8, .op 3, .bal 9], [2], [9]⟩) h2 (by simp [nestedGraph]) (by simp)
    (by simp [nestedGraph]) (nr _ (by simp [nestedGraph]))
  exact ⟨rfl, _, h3, by simp [nestedGraph], by simp⟩

/-- C67: a match with a result inside another hides that the outer one lacks its own. -/
theorem C67_nested_counterexample : CodeOk 10 nestedCode ∧
    cfg (fun l => l == 1 || l == 2 || l == 8 || l == 9) 10 nestedCode = some nestedGraph ∧ LacksResult nestedMarks nestedGraph 1 9 ∧
    (retCheck nestedMarks nestedGraph 9 0 none []).map (·.1) = some false :=
  ⟨⟨by decide +kernel, by simp [nestedCode]⟩, by decide +kernel, nestedGraph_lacks, by decide +kernel⟩

end Nature.Cfg
