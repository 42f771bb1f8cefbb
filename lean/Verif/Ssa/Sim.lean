/-
The converted function runs like the original: the current number of a live variable names its value.
-/
import Verif.Ssa.Rename
namespace Nature.Ssa

/-! ### Operations -/

theorem assign_names {V : Type} : ∀ (ds : List (Nat × Nat)) (h : Nat → Option Nat) (es : Nat × Nat → V) (e : Nat → V)
    (f : Nat → V) (v : Nat), (v ∈ ds.map Prod.fst ∨ ∃ k, h v = some k ∧ es (v, k) = e v) →
    ∃ k, assignNames h ds v = some k ∧ assign es ds f (v, k) = assign e (ds.map Prod.fst) f v := by
  intro ds
  induction ds with
  | nil =>
    intro h es e f v hv
    exact hv.resolve_left (by simp)
  | cons x ds ih =>
    intro h es e f v hv
    simp only [assignNames, assign, List.map_cons]
    apply ih
    by_cases hm : v ∈ ds.map Prod.fst
    · exact Or.inl hm
    refine Or.inr ?_
    by_cases hx : v = x.1
    · subst hx
      exact ⟨x.2, by simp [upd], by simp⟩
    · obtain ⟨k, hk, he⟩ := hv.resolve_left (by simpa [hx] using hm)
      refine ⟨k, by simpa [upd, hx] using hk, ?_⟩
      have : ¬ (v, k) = x := fun e => hx (by rw [← e])
      simp only [this, if_false, hx, he]

theorem ops_sim {V W : Type} (I : Interp V W) (S : Nat → Prop) : ∀ (os : List Op) (rs : List ROp) (h h' : Nat → Option Nat)
    (es : Nat × Nat → V) (e : Nat → V) (w : W), OpsNamed h os rs h' →
    (∀ v, (ReadsFirst v os ∨ (¬ Writes v os ∧ S v)) → ∃ k, h v = some k ∧ es (v, k) = e v) →
    (runOps I es w rs).2 = (runOps I e w os).2 ∧
    ∀ v, S v → ∃ k, h' v = some k ∧ (runOps I es w rs).1 (v, k) = (runOps I e w os).1 v := by
  intro os
  induction os with
  | nil =>
    intro rs h h' es e w hn hv
    cases rs with
    | nil =>
      simp only [OpsNamed] at hn
      subst hn
      exact ⟨rfl, fun v hs => hv v (Or.inr ⟨by simp [Writes], hs⟩)⟩
    | cons r rs => exact hn.elim
  | cons o os ih =>
    intro rs h h' es e w hn hv
    cases rs with
    | nil => exact hn.elim
    | cons r rs =>
      obtain ⟨n1, n2, n3, n4, n5⟩ := hn
      have huse : r.uses.map es = o.uses.map e := by
        rw [← n2, List.map_map]
        apply List.map_congr_left
        intro x hx
        obtain ⟨k, k1, k2⟩ := hv x.1 (Or.inl (Or.inl (by rw [← n2]; exact List.mem_map_of_mem hx)))
        rw [n3 x hx] at k1
        simp only [Option.some.injEq] at k1
        subst k1
        exact k2
      simp only [runOps]
      rw [huse, n1]
      refine ih rs _ _ _ _ _ n5 fun v hv' => ?_
      rw [← n4]
      refine assign_names r.defs h es e _ v ?_
      by_cases hm : v ∈ r.defs.map Prod.fst
      · exact Or.inl hm
      refine Or.inr (hv v ?_)
      rw [n4] at hm
      rcases hv' with h1 | ⟨h1, h2⟩
      · exact Or.inl (Or.inr ⟨hm, h1⟩)
      · refine Or.inr ⟨?_, h2⟩
        rintro ⟨o', ho, hd⟩
        rcases List.mem_cons.mp ho with rfl | ho
        · exact hm hd
        · exact h1 ⟨o', ho, hd⟩

theorem opsNamed_keep {v : Nat} : ∀ (os : List Op) (rs : List ROp) (h h' : Nat → Option Nat), OpsNamed h os rs h' →
    (¬ Writes v os → h' v = h v) ∧ (Writes v os → ∃ k, h' v = some k) := by
  intro os
  induction os with
  | nil =>
    intro rs h h' hn
    cases rs with
    | nil =>
      simp only [OpsNamed] at hn
      subst hn
      exact ⟨fun _ => rfl, fun ⟨o, ho, _⟩ => by simp at ho⟩
    | cons r rs => exact hn.elim
  | cons o os ih =>
    intro rs h h' hn
    cases rs with
    | nil => exact hn.elim
    | cons r rs =>
      obtain ⟨n1, n2, n3, n4, n5⟩ := hn
      obtain ⟨i1, i2⟩ := ih _ _ _ n5
      obtain ⟨a1, a2⟩ := assignNames_mem r.defs h v
      rw [n4] at a1 a2
      refine ⟨fun hw => ?_, fun hw => ?_⟩
      · rw [i1 fun ⟨o', ho, hd⟩ => hw ⟨o', List.mem_cons_of_mem _ ho, hd⟩]
        exact a1 fun hd => hw ⟨o, List.mem_cons_self, hd⟩
      · by_cases hw' : Writes v os
        · exact i2 hw'
        · rw [i1 hw']
          obtain ⟨o', ho, hd⟩ := hw
          rcases List.mem_cons.mp ho with rfl | ho
          · obtain ⟨k, _, hk⟩ := a2 hd
            exact ⟨k, hk⟩
          · exact absurd ⟨o', ho, hd⟩ hw'

/-! ### Numbers along edges -/

/-- What the conversion leaves. -/
structure Conv (c : Cfg) (idom : Blk → Option Blk) (phis : Blk → List Var) (G : List Var) (O : Out) : Prop where
  loc : ∀ x, x < c.length → Local c phis O x
  link : ∀ y x, idom y = some x → Link G O x y

theorem out_keep {c : Cfg} {idom : Nat → Option Nat} {phis : Nat → List Nat} {G : List Nat} {O : Out}
    (C : Conv c idom phis G O) {x v : Nat} (hx : x < c.length) (h1 : ¬ v ∈ phis x) (h2 : ¬ Writes v (c.ops x)) :
    O.out x v = O.inn x v := by
  obtain ⟨l1, l2, _⟩ := C.loc x hx
  rw [(opsNamed_keep _ _ _ _ l2).1 h2]
  exact (assignNames_mem _ _ _).1 (by rw [l1]; exact h1)

theorem live_written {c : Cfg} {v : Nat} {l : List Nat} {s : Blk} (h : Walk c l s) : LiveAt c v s →
    (∃ d ∈ l.tail, Writes v (c.ops d)) ∨ LiveAt c v 0 := by
  induction h with
  | entry => exact fun h => Or.inr h
  | @step l p s hw hs ih =>
    intro hl
    by_cases hp : Writes v (c.ops p)
    · obtain ⟨l', rfl⟩ := walk_head hw
      exact Or.inl ⟨p, by simp, hp⟩
    · exact (ih (LiveAt.pass hp hs hl)).imp (fun ⟨d, hd, h⟩ => ⟨d, by simpa using List.mem_of_mem_tail hd, h⟩) id

theorem mem_blockDefs {c : Cfg} {phis : Nat → List Nat} {x v : Nat} :
    v ∈ blockDefs c phis x ↔ v ∈ phis x ∨ Writes v (c.ops x) := by
  simp only [blockDefs, List.mem_append, List.mem_flatMap, Writes]

theorem merged_chain {c : Cfg} (w : Wf c) {idom : Nat → Option Nat} (hi : IdomOk c idom) {phis : Nat → List Nat}
    {G : List Nat} {O : Out} (C : Conv c idom phis G O) {i v : Nat} {k : Option Nat} (hv : v ∈ G) : ∀ r, r < c.length →
    Dominates c i r → O.out r v = k → (∀ x, OnChain idom i r x → ¬ (v ∈ phis x ∨ Writes v (c.ops x))) → O.out i v = k := by
  refine dom_induction w fun r hr ih hd ho hc => ?_
  by_cases hri : r = i
  · subst hri; exact ho
  have hr0 : r ≠ 0 := fun e => hri (by rw [e] at hd ⊢; exact (dom_of_zero hd).symm)
  obtain ⟨r', him⟩ := immDom_exists w hr hr0
  have hrr : idom r = some r' := (hi r r').mpr ⟨hr, hr0, him⟩
  have hnd := hc r (OnChain.here hri)
  rw [not_or] at hnd
  refine ih r' him (him.2.2 i (fun e => hri e.symm) hd) ?_ fun x hx => hc x (OnChain.up hri hrr hx)
  rw [← (C.link r r' hrr v).1 hv, ← out_keep C hr hnd.1 hnd.2, ho]

theorem single_below {c : Cfg} (w : Wf c) {idom : Nat → Option Nat} (hi : IdomOk c idom) {phis : Nat → List Nat}
    {G : List Nat} {O : Out} (C : Conv c idom phis G O) (one : OneBlock c phis G) {v d : Nat} {k : Nat} (hv : ¬ v ∈ G)
    (hd : v ∈ blockDefs c phis d) (hk : O.out d v = some k) : ∀ r, r < c.length → Dominates c d r → O.out r v = some k := by
  refine dom_induction w fun r hr ih hdr => ?_
  by_cases hrd : r = d
  · subst hrd; exact hk
  have hr0 : r ≠ 0 := fun e => hrd (by rw [e] at hdr ⊢; exact (dom_of_zero hdr).symm)
  obtain ⟨r', him⟩ := immDom_exists w hr hr0
  have hrr : idom r = some r' := (hi r r').mpr ⟨hr, hr0, him⟩
  have hnd : ¬ v ∈ blockDefs c phis r := fun h => hrd (one v hv r d h hd)
  rw [mem_blockDefs, not_or] at hnd
  rw [out_keep C hr hnd.1 hnd.2]
  exact (C.link r r' hrr v).2 hv k (ih r' him (him.2.2 d (fun e => hrd e.symm) hdr))

/-- A live variable without a phi function has the same number at the end of every predecessor and at the beginning. -/
theorem edge_number {c : Cfg} (w : Wf c) {idom : Nat → Option Nat} (hi : IdomOk c idom) {phis : Nat → List Nat}
    {G : List Nat} {O : Out} (C : Conv c idom phis G O) (one : OneBlock c phis G) (P : PhiSpec c idom phis G)
    (ini : Initialised c) {p s v k : Nat} (hs : s ∈ c.succs p) (hl : LiveAt c v s) (hp : ¬ v ∈ phis s)
    (ho : O.out p v = some k) : O.inn s v = some k := by
  have hps := (w.edge p s).mp hs
  obtain ⟨p1, p2, p3⟩ := preds_lt w hps
  obtain ⟨i, him⟩ := immDom_exists w p2 p3
  have hsi : idom s = some i := (hi s i).mpr ⟨p2, p3, him⟩
  have hip : Dominates c i p := dom_pred hs him.2.1 him.1
  by_cases hv : v ∈ G
  · rw [(C.link s i hsi v).1 hv]
    by_cases h2 : 2 ≤ (c.preds s).length
    · exact merged_chain w hi C hv p p1 hip ho fun x hx hd => hp (P.closed s i p x v p2 h2 hsi hps hx hl hd)
    · have hpi : p = i := by
        have hone : c.preds s = [p] := by
          match hm : c.preds s with
          | [] => rw [hm] at hps; simp at hps
          | [q] => rw [hm] at hps; simp at hps; rw [hps]
          | _ :: _ :: _ => rw [hm] at h2; simp at h2
        have hdp : Dominates c p s := dom_of_preds p3 fun q hq => by
          have := (w.edge q s).mp hq
          rw [hone, List.mem_singleton] at this
          rw [this]
          exact dom_refl p
        have hne : p ≠ s := by
          rintro rfl
          obtain ⟨l, hl⟩ := w.reach p p2
          have key : ∀ n l, l.length ≤ n → ¬ Walk c l p := by
            intro n
            induction n with
            | zero =>
              intro l hl hw
              obtain ⟨l', rfl⟩ := walk_head hw
              simp at hl
            | succ n ih =>
              intro l hl hw
              cases hw with
              | entry => exact p3 rfl
              | @step l q _ hw hq =>
                have := (w.edge q p).mp hq
                rw [hone, List.mem_singleton] at this
                subst this
                exact ih l (by simp at hl; omega) hw
          exact key _ l (Nat.le_refl _) hl
        exact dom_antisymm (w.reach p p1) (him.2.2 p hne hdp) hip
      rw [← hpi]
      exact ho
  · have hw1 : ∀ l, Walk c l s → ∃ d ∈ l.tail, Writes v (c.ops d) := fun l h => (live_written h hl).resolve_right (ini v)
    obtain ⟨l, hws⟩ := w.reach s p2
    obtain ⟨d, hdl, hd⟩ := hw1 l hws
    have hdb : v ∈ blockDefs c phis d := mem_blockDefs.mpr (Or.inr hd)
    have htail : ∀ l, Walk c l s → d ∈ l.tail := by
      intro l h
      obtain ⟨d', hm, hw'⟩ := hw1 l h
      rwa [one v hv d d' hdb (mem_blockDefs.mpr (Or.inr hw'))]
    have hds : Dominates c d s := fun l h => List.mem_of_mem_tail (htail l h)
    have hne : d ≠ s := by
      rintro rfl
      have key : ∀ n l, l.length ≤ n → ¬ Walk c l d := by
        intro n
        induction n with
        | zero =>
          intro l hl hw
          obtain ⟨l', rfl⟩ := walk_head hw
          simp at hl
        | succ n ih =>
          intro l hl hw
          have ht := htail l hw
          cases hw with
          | entry => simp at ht
          | @step l q _ hw hq =>
            obtain ⟨l', h', hle, _⟩ := walk_sub hw ht
            exact ih l' (by simp at hl; omega) h'
      exact key _ l (Nat.le_refl _) hws
    have hdlt : d < c.length := dom_lt w p2 hds
    obtain ⟨kd, hkd⟩ := (opsNamed_keep (v := v) _ _ _ _ (C.loc d hdlt).2.1).2 hd
    have hall := single_below w hi C one hv hdb hkd
    have h1 := hall p p1 (dom_pred hs hds hne)
    have h2 := hall i (dom_lt w p2 him.2.1) (him.2.2 d hne hds)
    rw [ho] at h1
    rw [h1]
    exact (C.link s i hsi v).2 hv kd h2

/-! ### The simulation -/

theorem phiIndex_spec {ps : List Nat} (hn : ps.Nodup) {p i : Nat} (h : phiIndex ps p = some i) : ps.idxOf p = i := by
  have h1 := List.find?_some h
  have h2 := List.mem_of_find?_eq_some h
  simp only [beq_iff_eq] at h1
  obtain ⟨hlt, e⟩ := List.getElem?_eq_some_iff.mp h1
  rw [← e]
  exact hn.idxOf_getElem i hlt

/-- Giving variables the values they have changes nothing. -/
theorem assign_self {V : Type} [Inhabited V] (e : Nat → V) : ∀ (vs : List Nat),
    assign e vs (fun i => (vs.map e).getD i default) = e := by
  intro vs
  induction vs with
  | nil => rfl
  | cons v vs ih =>
    have h0 : (fun y => if y = v then ((v :: vs).map e).getD 0 default else e y) = e := by
      funext y
      by_cases hy : y = v
      · subst hy; simp
      · simp [hy]
    have h1 : (fun i => ((v :: vs).map e).getD (i + 1) default) = fun i => (vs.map e).getD i default := by
      funext i
      simp
    simp only [assign]
    rw [h0, h1, ih]

theorem phiVals_spec {V : Type} {O : Out} {es : Nat × Nat → V} {e : Nat → V} {b i : Nat} : ∀ (ps : List (Nat × Nat)),
    (∀ x ∈ ps, ∃ k, O.args b x.1 i = some k ∧ es (x.1, k) = e x.1) →
    phiVals O es b i ps = some ((ps.map Prod.fst).map e) := by
  intro ps
  induction ps with
  | nil => intro _; rfl
  | cons x ps ih =>
    intro h
    rw [List.forall_mem_cons] at h
    obtain ⟨⟨k, k1, k2⟩, h2⟩ := h
    simp only [phiVals, k1, Option.bind_some, ih h2, k2, List.map_cons]

/-- Corresponding states. -/
def Rel {V W : Type} (c : Cfg) (O : Out) (st : State Nat V W) (ss : State (Nat × Nat) V W) : Prop :=
  ss.pos = st.pos ∧ ss.world = st.world ∧
  match st.pos with
  | .edge p s => s ∈ c.succs p ∧ ∀ v, LiveAt c v s → ∃ k, O.out p v = some k ∧ ss.env (v, k) = st.env v
  | _ => True

/-- A block run from corresponding variables. -/
theorem block_sim {V W : Type} (I : Interp V W) {c : Cfg} {idom : Nat → Option Nat} {phis : Nat → List Nat}
    {G : List Nat} {O : Out} (C : Conv c idom phis G O) {b : Blk} (hb : b < c.length) {es : Nat × Nat → V} {e : Nat → V}
    {w : W} (hv : ∀ v, LiveAt c v b → ∃ k, assignNames (O.inn b) (O.phis b) v = some k ∧ es (v, k) = e v) :
    Rel c O ⟨leave c b (I.next (runOps I e w (c.ops b)).2), (runOps I e w (c.ops b)).1, (runOps I e w (c.ops b)).2⟩
      ⟨leave c b (I.next (runOps I es w (O.ops b)).2), (runOps I es w (O.ops b)).1, (runOps I es w (O.ops b)).2⟩ := by
  obtain ⟨_, l2, _⟩ := C.loc b hb
  obtain ⟨s1, s2⟩ := ops_sim I (fun v => ∃ s ∈ c.succs b, LiveAt c v s) _ _ _ _ es e w l2 (by
    intro v h
    refine hv v ?_
    rcases h with h | ⟨h1, s, hs, hl⟩
    · exact LiveAt.read h
    · exact LiveAt.pass h1 hs hl)
  refine ⟨by simp only [s1], s1, ?_⟩
  simp only [leave]
  cases hn : (c.succs b)[I.next (runOps I e w (c.ops b)).2]? with
  | none => trivial
  | some s =>
    have hs : s ∈ c.succs b := List.mem_of_getElem? hn
    exact ⟨hs, fun v hl => s2 v ⟨s, hs, hl⟩⟩

theorem step_sim {V W : Type} [Inhabited V] (I : Interp V W) {c : Cfg} (w : Wf c) {idom : Nat → Option Nat}
    (hi : IdomOk c idom) {phis : Nat → List Nat} {G : List Nat} {O : Out} (C : Conv c idom phis G O)
    (one : OneBlock c phis G) (P : PhiSpec c idom phis G) (ini : Initialised c) {st : State Nat V W}
    {ss : State (Nat × Nat) V W} (h : Rel c O st ss) : ∃ ss', stepS c O I ss = some ss' ∧ Rel c O (step c I st) ss' := by
  obtain ⟨pos, env, world⟩ := st
  obtain ⟨pos', es, world'⟩ := ss
  obtain ⟨h1, h2, h3⟩ := h
  simp only at h1 h2
  subst h1
  subst h2
  cases pos' with
  | stop => exact ⟨_, rfl, rfl, rfl, h3⟩
  | start =>
    have hp0 : O.phis 0 = [] := by
      have hl := (C.loc 0 w.nonempty).1
      have : phis 0 = [] := by
        cases hph : phis 0 with
        | nil => rfl
        | cons v vs =>
          have := (P.join 0 v (by simp [hph])).1
          rw [w.entry] at this
          simp at this
      rw [this] at hl
      simpa using hl
    simp only [stepS, runBlockS, hp0, if_true, Option.bind_some]
    refine ⟨_, rfl, ?_⟩
    exact block_sim I C w.nonempty fun v hv => absurd hv (ini v)
  | edge p s =>
    obtain ⟨hs, hv⟩ := h3
    have hps := (w.edge p s).mp hs
    obtain ⟨p1, p2, p3⟩ := preds_lt w hps
    obtain ⟨l1, _, _⟩ := C.loc s p2
    have hphi : phiVals O es s ((c.preds s).idxOf p) (O.phis s) = some (((O.phis s).map Prod.fst).map env) := by
      refine phiVals_spec _ fun x hx => ?_
      have hx' : x.1 ∈ phis s := by rw [← l1]; exact List.mem_map_of_mem hx
      obtain ⟨i, k, i1, i2, i3⟩ := (C.loc p p1).2.2 s hs x.1 hx'
      obtain ⟨k', k1, k2⟩ := hv x.1 (P.live s x.1 hx')
      rw [i3] at k1
      simp only [Option.some.injEq] at k1
      subst k1
      rw [phiIndex_spec (w.nodup s) i1]
      exact ⟨k, i2, k2⟩
    simp only [stepS, runBlockS, hphi, Option.bind_some]
    refine ⟨_, rfl, ?_⟩
    refine block_sim I C p2 fun v hl => ?_
    have := assign_names (O.phis s) (O.inn s) es env (fun i => (((O.phis s).map Prod.fst).map env).getD i default) v (by
      by_cases hm : v ∈ (O.phis s).map Prod.fst
      · exact Or.inl hm
      · obtain ⟨k, k1, k2⟩ := hv v hl
        rw [l1] at hm
        exact Or.inr ⟨k, edge_number w hi C one P ini hs hl hm k1, k2⟩)
    rw [assign_self env ((O.phis s).map Prod.fst)] at this
    exact this

theorem run_sim {V W : Type} [Inhabited V] (I : Interp V W) {c : Cfg} (w : Wf c) {idom : Nat → Option Nat}
    (hi : IdomOk c idom) {phis : Nat → List Nat} {G : List Nat} {O : Out} (C : Conv c idom phis G O)
    (one : OneBlock c phis G) (P : PhiSpec c idom phis G) (ini : Initialised c) (e : Nat → V) (es : Nat × Nat → V) (w0 : W) :
    ∀ n, ∃ ss, runS c O I ⟨.start, es, w0⟩ n = some ss ∧ Rel c O (run c I ⟨.start, e, w0⟩ n) ss := by
  intro n
  induction n with
  | zero => exact ⟨_, rfl, rfl, rfl, trivial⟩
  | succ n ih =>
    obtain ⟨ss, h1, h2⟩ := ih
    obtain ⟨ss', h3, h4⟩ := step_sim I w hi C one P ini h2
    exact ⟨ss', by simp only [runS, h1, Option.bind_some, h3], h4⟩

/-- The pieces of a successful conversion. -/
theorem ssa_pieces {c : Cfg} (w : Wf c) {fuel : Nat} {O : Out} (h : ssa c fuel = some O) :
    ∃ (idom : Nat → Option Nat) (phis : Nat → List Nat) (G : List Nat), IdomOk c idom ∧ PhiSpec c idom phis G ∧
      rename c phis G (domees c idom) = some O := by
  simp only [ssa, Option.bind_eq_some_iff] at h
  obtain ⟨d, h1, idom, h2, df, h3, l, h4, ins, h5, h6⟩ := h
  have hd := (domers_spec w h1).2
  exact ⟨idom, _, _, immDomers_spec w hd h2, phiSpec_of h3 (live_spec w h4).1 h5, h6⟩

theorem rename_conv {c : Cfg} (w : Wf c) {idom : Nat → Option Nat} (hi : IdomOk c idom) {phis : Nat → List Nat} {G : List Nat}
    (one : OneBlock c phis G) {O : Out} (h : rename c phis G (domees c idom) = some O) : Conv c idom phis G O := by
  simp only [rename, Option.map_eq_some_iff] at h
  obtain ⟨st', h1, rfl⟩ := h
  have v := visit_of w hi one _ 0 w.nonempty _ _ (by intro v _ hne; exact absurd rfl hne) h1
  refine ⟨fun x hx => v.loc x ⟨hx, dom_zero x⟩, fun y x hyx => ?_⟩
  obtain ⟨y1, y2, _⟩ := (hi y x).mp hyx
  exact v.link y x ⟨y1, dom_zero y⟩ y2 hyx

end Nature.Ssa
