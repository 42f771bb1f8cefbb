/-
The conversion ends with a result.
-/
import Verif.Ssa.Count
namespace Nature.Ssa

/-! ### Dominance frontiers -/

/-- A table of dominators. -/
structure DomOk (c : Cfg) (d : Dom) : Prop where
  listed : Listed c d
  mem : ∀ b, b < c.length → ∀ x, x ∈ d b ↔ Dominates c x b

theorem depth_lt {c : Cfg} (w : Wf c) {d : Dom} (hd : DomOk c d) {i b : Blk} (hb : b < c.length) (h : ImmDom c i b) :
    (d i).length < (d b).length := by
  have hil := dom_lt w hb h.2.1
  obtain ⟨l1, l2⟩ := listed_len (hd.listed b) (hd.listed i) fun x hx =>
    (hd.mem b hb x).mpr (dom_trans ((hd.mem i hil x).mp hx) h.2.1)
  rcases Nat.lt_or_eq_of_le l1 with hlt | heq
  · exact hlt
  · have hbi : b ∈ d i := by rw [l2 heq]; exact (hd.mem b hb b).mpr (dom_refl b)
    exact absurd (dom_antisymm (w.reach i hil) h.2.1 ((hd.mem i hil b).mp hbi)) h.1

theorem depth_pos {c : Cfg} {d : Dom} (hd : DomOk c d) {b : Blk} (hb : b < c.length) : 0 < (d b).length :=
  List.length_pos_of_mem ((hd.mem b hb b).mpr (dom_refl b))

theorem depth_le {c : Cfg} {d : Dom} (hd : DomOk c d) (b : Blk) : (d b).length ≤ c.length := by
  obtain ⟨P, e⟩ := hd.listed b
  rw [e]
  exact Nat.le_trans (List.length_filter_le _ _) (by simp)

theorem runner_some {c : Cfg} (w : Wf c) {idom : Nat → Option Nat} (hi : IdomOk c idom) {d : Dom} (hd : DomOk c d)
    {stop cur : Blk} : ∀ (n : Nat) (r : Blk) (df : Dom), r < c.length → Dominates c stop r → (d r).length ≤ n →
    ∃ df', runner idom stop cur n r df = some df' := by
  intro n
  induction n with
  | zero =>
    intro r df hr _ hn
    have := depth_pos hd hr
    omega
  | succ n ih =>
    intro r df hr hs hn
    simp only [runner]
    by_cases hrs : r = stop
    · rw [if_pos hrs]; exact ⟨_, rfl⟩
    · rw [if_neg hrs]
      have hr0 : r ≠ 0 := fun e => hrs (by rw [e] at hs ⊢; exact (dom_of_zero hs).symm)
      obtain ⟨r', him⟩ := immDom_exists w hr hr0
      have hrr : idom r = some r' := (hi r r').mpr ⟨hr, hr0, him⟩
      simp only [hrr, him.1, if_false]
      refine ih r' _ (dom_lt w hr him.2.1) (him.2.2 stop (fun e => hrs e.symm) hs) ?_
      have := depth_lt w hd hr him
      omega

theorem ssaDf_some {c : Cfg} (w : Wf c) {idom : Nat → Option Nat} (hi : IdomOk c idom) {d : Dom} (hd : DomOk c d) :
    ∃ df, ssaDf c idom = some df := by
  have hp : ∀ (stop cur : Nat) (ps : List Nat) (df : Dom), (∀ p ∈ ps, p < c.length ∧ Dominates c stop p) →
      ∃ df', dfPreds c.length idom stop cur ps df = some df' := by
    intro stop cur ps
    induction ps with
    | nil => intro df _; exact ⟨_, rfl⟩
    | cons p ps ih =>
      intro df h
      rw [List.forall_mem_cons] at h
      obtain ⟨df1, h1⟩ := runner_some w hi hd (cur := cur) (c.length + 1) p df h.1.1 h.1.2 (by have := depth_le hd p; omega)
      obtain ⟨df2, h2⟩ := ih df1 h.2
      exact ⟨df2, by simp [dfPreds, h1, h2]⟩
  have hb : ∀ (bs : List Nat) (df : Dom), ∃ df', dfBlocks c idom bs df = some df' := by
    intro bs
    induction bs with
    | nil => intro df; exact ⟨_, rfl⟩
    | cons b bs ih =>
      intro df
      simp only [dfBlocks]
      split
      · exact ih df
      · rename_i h2
        obtain ⟨p, hpm⟩ := List.exists_mem_of_ne_nil (c.preds b) (fun e => by rw [e] at h2; simp at h2)
        obtain ⟨_, b1, b2⟩ := preds_lt w hpm
        obtain ⟨i, him⟩ := immDom_exists w b1 b2
        have hbi : idom b = some i := (hi b i).mpr ⟨b1, b2, him⟩
        simp only [hbi]
        obtain ⟨df1, h1⟩ := hp i b (c.preds b) df fun q hq =>
          ⟨(preds_lt w hq).1, dom_pred ((w.edge q b).mpr hq) him.2.1 him.1⟩
        obtain ⟨df2, h2⟩ := ih df1
        exact ⟨df2, by simp [h1, h2]⟩
  exact hb _ _

/-! ### More rounds do not matter -/

theorem domLoop_mono {c : Cfg} : ∀ (n m : Nat) (d r : Dom), n ≤ m → domLoop c n d = some r → domLoop c m d = some r := by
  intro n
  induction n with
  | zero => intro m d r _ h; simp [domLoop] at h
  | succ n ih =>
    intro m d r hm h
    obtain ⟨m, rfl⟩ : ∃ k, m = k + 1 := ⟨m - 1, by omega⟩
    simp only [domLoop] at h ⊢
    split at h
    · rename_i hc
      rw [if_pos hc]
      exact ih m _ _ (by omega) h
    · rename_i hc
      rw [if_neg hc]
      exact h

theorem liveLoop_mono {c : Cfg} {a : Analysis} : ∀ (n m : Nat) (d r : Live), n ≤ m → liveLoop c a n d = some r →
    liveLoop c a m d = some r := by
  intro n
  induction n with
  | zero => intro m d r _ h; simp [liveLoop] at h
  | succ n ih =>
    intro m d r hm h
    obtain ⟨m, rfl⟩ : ∃ k, m = k + 1 := ⟨m - 1, by omega⟩
    simp only [liveLoop] at h ⊢
    split at h
    · rename_i hc
      rw [if_pos hc]
      exact ih m _ _ (by omega) h
    · rename_i hc
      rw [if_neg hc]
      exact h

theorem phiLoop_mono {v : Nat} {df : Dom} {li : Nat → List Nat} : ∀ (n m : Nat) (work ins r : List Nat), n ≤ m →
    phiLoop v df li n work ins = some r → phiLoop v df li m work ins = some r := by
  intro n
  induction n with
  | zero =>
    intro m work ins r _ h
    cases work with
    | nil => cases m <;> simpa [phiLoop] using h
    | cons b work => simp [phiLoop] at h
  | succ n ih =>
    intro m work ins r hm h
    obtain ⟨m, rfl⟩ : ∃ k, m = k + 1 := ⟨m - 1, by omega⟩
    cases work with
    | nil => simpa [phiLoop] using h
    | cons b work =>
      simp only [phiLoop] at h ⊢
      exact ih m _ _ _ (by omega) h

theorem addPhis_mono {a : Analysis} {df : Dom} {li : Nat → List Nat} {n m : Nat} (hm : n ≤ m) : ∀ (vs : List Nat)
    (ins r : Nat → List Nat), addPhis a df li n vs ins = some r → addPhis a df li m vs ins = some r := by
  intro vs
  induction vs with
  | nil => intro ins r h; exact h
  | cons v vs ih =>
    intro ins r h
    simp only [addPhis] at h ⊢
    split at h
    · simp at h
    · rename_i hv
      rw [if_neg hv]
      simp only [Option.bind_eq_some_iff] at h ⊢
      obtain ⟨l, h1, h2⟩ := h
      exact ⟨l, phiLoop_mono _ _ _ _ _ hm h1, ih _ _ h2⟩

/-- The conversion up to the placing of phi functions. -/
def upToPhis (c : Cfg) (fuel : Nat) : Option ((Var → List Blk) × (Blk → Option Blk)) :=
  (domers c fuel).bind fun d =>
  (immDomers c d).bind fun idom =>
  (ssaDf c idom).bind fun df =>
  (live c (useDef c) fuel).bind fun l =>
  (addPhis (useDef c) df l.inn fuel (useDef c).globals (fun _ => [])).bind fun ins => some (ins, idom)

theorem ssa_eq (c : Cfg) (fuel : Nat) : ssa c fuel = (upToPhis c fuel).bind fun p =>
    rename c (phisOf (useDef c).globals p.1) (merged (useDef c).globals p.1) (domees c p.2) := by
  simp only [ssa, upToPhis, Option.bind_assoc, Option.bind_some]

theorem upToPhis_mono {c : Cfg} {n m : Nat} {p : (Nat → List Nat) × (Nat → Option Nat)} (hm : n ≤ m)
    (h : upToPhis c n = some p) : upToPhis c m = some p := by
  simp only [upToPhis, Option.bind_eq_some_iff] at h ⊢
  obtain ⟨d, h1, idom, h2, df, h3, l, h4, ins, h5, h6⟩ := h
  refine ⟨d, ?_, idom, h2, df, h3, l, liveLoop_mono _ _ _ _ hm h4, ins, addPhis_mono hm _ _ _ h5, h6⟩
  simp only [domers] at h1 ⊢
  split at h1
  · simp at h1
  · rename_i hl
    rw [if_neg hl]
    exact domLoop_mono _ _ _ _ hm h1

theorem ssa_mono {c : Cfg} {n m : Nat} {O : Out} (hm : n ≤ m) (h : ssa c n = some O) : ssa c m = some O := by
  rw [ssa_eq, Option.bind_eq_some_iff] at h ⊢
  obtain ⟨p, h1, h2⟩ := h
  exact ⟨p, upToPhis_mono hm h1, h2⟩

/-- If renaming is what fails, more rounds do not help. -/
theorem ssa_none {c : Cfg} {n : Nat} (h1 : (upToPhis c n).isSome) (h2 : ssa c n = none) (m : Nat) : ssa c m = none := by
  obtain ⟨p, hp⟩ := Option.isSome_iff_exists.mp h1
  cases h : ssa c m with
  | none => rfl
  | some O =>
    have h3 := ssa_mono (Nat.le_max_left m n) h
    rw [ssa_eq, upToPhis_mono (Nat.le_max_right m n) hp] at h3
    rw [ssa_eq, hp] at h2
    simp only [Option.bind_some] at h2 h3
    rw [h2] at h3
    simp at h3

/-! ### Phi functions -/

theorem phiLoop_some {v : Nat} {df : Dom} {li : Nat → List Nat} {N : Nat} (hdf : ∀ x y, y ∈ df x → y < N) :
    ∀ (n : Nat) (work ins : List Nat), ins.Nodup → (∀ x ∈ ins, x < N) → work.length + (N - ins.length) ≤ n →
    ∃ r, phiLoop v df li n work ins = some r := by
  intro n
  induction n with
  | zero =>
    intro work ins hn hs hl
    cases work with
    | nil => exact ⟨_, rfl⟩
    | cons b work => simp at hl
  | succ n ih =>
    intro work ins hn hs hl
    cases work with
    | nil => exact ⟨_, rfl⟩
    | cons b work =>
      simp only [phiLoop]
      obtain ⟨_, _, f3, _, f5, f6⟩ := phiFrontier_spec (v := v) (liveIn := li) (df b) work ins
      have hs' : ∀ x ∈ (phiFrontier v li (df b) work ins).2, x < N := by
        intro x hx
        rcases f3 x hx with h | h
        · exact hs x h
        · exact hdf b x h.2.1
      refine ih _ _ (f5 hn) hs' ?_
      have hle := (nodup_len _ (List.range N) (f5 hn) fun x hx => List.mem_range.mpr (hs' x hx)).1
      rw [List.length_range] at hle
      simp only [List.length_cons] at hl
      omega

theorem addPhis_some {c : Cfg} (w : Wf c) (ini : Initialised c) {df : Dom} (hdf : ∀ x y, y ∈ df x → y < c.length)
    {li : Nat → List Nat} : ∀ (vs : List Nat), (∀ v ∈ vs, v ∈ (useDef c).globals) → ∀ ins, ∃ n r,
      addPhis (useDef c) df li n vs ins = some r := by
  have u := useDef_spec c
  intro vs
  induction vs with
  | nil => intro _ ins; exact ⟨0, ins, rfl⟩
  | cons v vs ih =>
    intro hv ins
    rw [List.forall_mem_cons] at hv
    have hne : (useDef c).varBlocks v ≠ [] := by
      intro e
      obtain ⟨b, hb⟩ := (u.globals v).mp hv.1
      have hbl : b < c.length := by
        by_cases h : b < c.length
        · exact h
        · rw [ops_of_ge h] at hb; exact hb.elim
      obtain ⟨l, hl⟩ := w.reach b hbl
      rcases live_written hl (LiveAt.read hb) with ⟨x, _, hx⟩ | h
      · have := (u.blocks v x).mpr hx
        rw [e] at this
        simp at this
      · exact ini v h
    obtain ⟨r1, h1⟩ := phiLoop_some (v := v) (df := df) (li := li) hdf (((useDef c).varBlocks v).length + (c.length - 0))
      ((useDef c).varBlocks v) [] (by simp) (by simp) (Nat.le_refl _)
    obtain ⟨n, r2, h2⟩ := ih hv.2 (upd ins v r1)
    refine ⟨((useDef c).varBlocks v).length + (c.length - 0) + n, r2, ?_⟩
    simp only [addPhis, hne, if_false]
    rw [phiLoop_mono _ _ _ _ _ (Nat.le_add_right _ _) h1, Option.bind_some]
    exact addPhis_mono (Nat.le_add_left _ _) _ _ _ h2

/-! ### Live variables have a number -/

theorem onChain_of {c : Cfg} (w : Wf c) {idom : Nat → Option Nat} (hi : IdomOk c idom) {d j : Blk} (hdj : ¬ Dominates c d j) :
    ∀ q, q < c.length → Dominates c d q → Dominates c j q → OnChain idom j q d := by
  refine dom_induction w fun q hq ih h1 h2 => ?_
  have hqj : q ≠ j := fun e => hdj (e ▸ h1)
  by_cases hqd : q = d
  · subst hqd; exact OnChain.here hqj
  have hq0 : q ≠ 0 := fun e => hqd (by rw [e] at h1 ⊢; exact (dom_of_zero h1).symm)
  obtain ⟨q', him⟩ := immDom_exists w hq hq0
  exact OnChain.up hqj ((hi q q').mpr ⟨hq, hq0, him⟩)
    (ih q' him (him.2.2 d (fun e => hqd e.symm) h1) (him.2.2 j (fun e => hqj e.symm) h2))

theorem not_self_loop {c : Cfg} (w : Wf c) {p : Blk} (hp : p < c.length) (h0 : p ≠ 0) (hone : c.preds p = [p]) : False := by
  obtain ⟨l, hl⟩ := w.reach p hp
  have key : ∀ n l, l.length ≤ n → ¬ Walk c l p := by
    intro n
    induction n with
    | zero =>
      intro l hl hw
      obtain ⟨l', rfl⟩ := walk_head hw
      simp at hl
    | succ n ih =>
      intro l hl hw
      cases hw with
      | entry => exact h0 rfl
      | @step l q _ hw hq =>
        have := (w.edge q p).mp hq
        rw [hone, List.mem_singleton] at this
        subst this
        exact ih l (by simp at hl; omega) hw
  exact key _ l (Nat.le_refl _) hl

/-- A definition that reaches a live variable past the end of what its block dominates makes a phi function. -/
theorem df_closed {c : Cfg} (w : Wf c) {idom : Nat → Option Nat} (hi : IdomOk c idom) {phis : Nat → List Nat} {G : List Nat}
    (P : PhiSpec c idom phis G) {d y q v : Nat} (hq : q ∈ c.preds y) (hl : LiveAt c v y) (hd : Dominates c d q)
    (hn : ¬ (d ≠ y ∧ Dominates c d y)) (hv : v ∈ phis d ∨ Writes v (c.ops d)) : v ∈ phis y := by
  obtain ⟨q1, y1, y2⟩ := preds_lt w hq
  obtain ⟨j, him⟩ := immDom_exists w y1 y2
  have hyj : idom y = some j := (hi y j).mpr ⟨y1, y2, him⟩
  have hjq : Dominates c j q := dom_pred ((w.edge q y).mpr hq) him.2.1 him.1
  have hjl := dom_lt w y1 him.2.1
  have hdj : ¬ Dominates c d j := by
    intro h
    refine hn ⟨?_, dom_trans h him.2.1⟩
    rintro rfl
    exact him.1 (dom_antisymm (w.reach j hjl) him.2.1 h)
  by_cases h2 : 2 ≤ (c.preds y).length
  · exact P.closed y j q d v y1 h2 hyj hq (onChain_of w hi hdj q q1 hd hjq) hl hv
  · exfalso
    have hone : c.preds y = [q] := by
      match hm : c.preds y with
      | [] => rw [hm] at hq; simp at hq
      | [p] => rw [hm] at hq; simp at hq; rw [hq]
      | _ :: _ :: _ => rw [hm] at h2; simp at h2
    have hdq : Dominates c q y := dom_of_preds y2 fun p hp => by
      have := (w.edge p y).mp hp
      rw [hone, List.mem_singleton] at this
      rw [this]
      exact dom_refl q
    have hne : q ≠ y := by
      rintro rfl
      exact not_self_loop w y1 y2 hone
    exact hdj (dom_trans hd (him.2.2 q hne hdq))

/-- There is a number for `v` after the phi functions of the block. -/
inductive HasName (c : Cfg) (idom : Blk → Option Blk) (phis : Blk → List Var) (v : Var) : Blk → Prop
  | phi {b : Blk} : v ∈ phis b → HasName c idom phis v b
  | up {b i : Blk} : idom b = some i → HasName c idom phis v i → HasName c idom phis v b
  | written {b i : Blk} : idom b = some i → Writes v (c.ops i) → HasName c idom phis v b

theorem live_back {c : Cfg} (w : Wf c) {idom : Nat → Option Nat} (hi : IdomOk c idom) {phis : Nat → List Nat} {G : List Nat}
    (P : PhiSpec c idom phis G) {i v : Nat} (hnw : ¬ Writes v (c.ops i)) {l : List Nat} {x : Nat} (hw : Walk c l x) :
    Dominates c i x → LiveAt c v x →
    (x = i ∨ ∀ p, x ∈ c.succs p → ∀ d, (v ∈ phis d ∨ Writes v (c.ops d)) → d ≠ i → Dominates c i d → ¬ Dominates c d p) →
    LiveAt c v i := by
  induction hw with
  | entry =>
    intro h1 h2 _
    rw [dom_of_zero h1]
    exact h2
  | @step l p x hw hs ih =>
    intro h1 h2 h3
    by_cases hxi : x = i
    · rw [← hxi]; exact h2
    have hR := h3.resolve_left hxi
    have hip : Dominates c i p := dom_pred hs h1 (fun e => hxi e.symm)
    by_cases hpi : p = i
    · rw [← hpi] at hnw ⊢
      exact LiveAt.pass hnw hs h2
    have hnd : ¬ (v ∈ phis p ∨ Writes v (c.ops p)) := fun hd => hR p hs p hd hpi hip (dom_refl p)
    rw [not_or] at hnd
    have hlp : LiveAt c v p := LiveAt.pass hnd.2 hs h2
    refine ih hip hlp (Or.inr fun q hq d hd hdi hid hdq => ?_)
    by_cases hdp : d ≠ p ∧ Dominates c d p
    · exact hR p hs d hd hdi hid hdp.2
    · exact hnd.1 (df_closed w hi P ((w.edge q p).mp hq) hlp hdq hdp hd)

theorem live_named {c : Cfg} (w : Wf c) {idom : Nat → Option Nat} (hi : IdomOk c idom) {phis : Nat → List Nat} {G : List Nat}
    (P : PhiSpec c idom phis G) (ini : Initialised c) {v : Nat} : ∀ s, s < c.length → LiveAt c v s →
    HasName c idom phis v s := by
  refine dom_induction (P := fun s => LiveAt c v s → HasName c idom phis v s) w fun s hs ih hl => ?_
  by_cases hp : v ∈ phis s
  · exact HasName.phi hp
  have hs0 : s ≠ 0 := fun e => ini v (e ▸ hl)
  obtain ⟨i, him⟩ := immDom_exists w hs hs0
  have hsi : idom s = some i := (hi s i).mpr ⟨hs, hs0, him⟩
  by_cases hw : Writes v (c.ops i)
  · exact HasName.written hsi hw
  by_cases hpi : v ∈ phis i
  · exact HasName.up hsi (HasName.phi hpi)
  obtain ⟨l, hws⟩ := w.reach s hs
  refine HasName.up hsi (ih i him (live_back w hi P hw hws him.2.1 hl (Or.inr ?_)))
  intro p hsp d hd hdi hid hdp
  by_cases hds : d ≠ s ∧ Dominates c d s
  · exact hdi (dom_antisymm (w.reach d (dom_lt w hs hds.2)) (him.2.2 d hds.1 hds.2) hid)
  · exact hp (df_closed w hi P ((w.edge p s).mp hsp) hl hdp hds hd)

/-! ### Renaming -/

/-- Room for the numbers of `vs`. -/
def Room (vs : List Var) (s : Names) : Prop := ∀ v, (s.stk v).length + vs.count v ≤ 255 ∧ s.num v + 2 * vs.count v ≤ 255

theorem room_left {vs ws : List Nat} {s : Names} (h : Room (vs ++ ws) s) : Room vs s := by
  intro v
  have := h v
  rw [List.count_append] at this
  omega

theorem room_right {vs ws : List Nat} {s s' : Names} {ps : List (Nat × Nat)} (h : Room (vs ++ ws) s) (hn : Numbered vs s s' ps) :
    Room ws s' := by
  intro v
  have := h v
  rw [List.count_append] at this
  rw [hn.num, hn.len]
  omega

theorem newNumber_some {s : Names} {v : Nat} (h : Room [v] s) : ∃ s', newNumber s v = some (s', s.num v) ∧ s.num v < 255 := by
  have := h v
  simp only [List.count_singleton_self] at this
  have h1 : ¬ 255 ≤ (s.stk v).length := by omega
  have h2 : s.num v < 255 := by omega
  simp only [newNumber, h1, if_false]
  exact ⟨_, rfl, h2⟩

theorem namePhis_some : ∀ (vs : List Nat) (s : Names), Room vs s → ∃ r, namePhis s vs = some r := by
  intro vs
  induction vs with
  | nil => intro s _; exact ⟨_, rfl⟩
  | cons v vs ih =>
    intro s h
    obtain ⟨s', h1, h2⟩ := newNumber_some (room_left (vs := [v]) (ws := vs) h)
    obtain ⟨r, h3⟩ := ih s' (room_right (vs := [v]) h (newNumber_numbered h1))
    simp only [namePhis, h1, Option.bind_some, h2, if_true, h3]
    exact ⟨_, rfl⟩

theorem nameDefs_some : ∀ (vs : List Nat) (s : Names), Room vs s → ∃ r, nameDefs s vs = some r := by
  intro vs
  induction vs with
  | nil => intro s _; exact ⟨_, rfl⟩
  | cons v vs ih =>
    intro s h
    obtain ⟨s', h1, h2⟩ := newNumber_some (room_left (vs := [v]) (ws := vs) h)
    obtain ⟨r, h3⟩ := ih s' (room_right (vs := [v]) h (newNumber_numbered h1))
    have h4 : s.num v % 256 < 255 := by omega
    simp only [nameDefs, h1, Option.bind_some, h4, if_true, h3]
    exact ⟨_, rfl⟩

theorem nameUses_some {s : Names} : ∀ (vs : List Nat), (∀ v ∈ vs, s.stk v ≠ []) → ∃ r, nameUses s vs = some r := by
  intro vs
  induction vs with
  | nil => intro _; exact ⟨_, rfl⟩
  | cons v vs ih =>
    intro h
    rw [List.forall_mem_cons] at h
    obtain ⟨r, hr⟩ := ih h.2
    cases hs : s.stk v with
    | nil => exact absurd hs h.1
    | cons k ks =>
      simp only [nameUses, hs, hr, Option.bind_some]
      exact ⟨_, rfl⟩

theorem nameOps_some : ∀ (os : List Op) (s : Names), Room (os.flatMap (·.defs)) s → (∀ v, ReadsFirst v os → s.stk v ≠ []) →
    ∃ r, nameOps s os = some r := by
  intro os
  induction os with
  | nil => intro s _ _; exact ⟨_, rfl⟩
  | cons o os ih =>
    intro s h hr
    rw [List.flatMap_cons] at h
    obtain ⟨us, h1⟩ := nameUses_some o.uses (fun v hv => hr v (Or.inl hv))
    obtain ⟨ds, h2⟩ := nameDefs_some o.defs s (room_left h)
    have hn := nameDefs_numbered _ _ _ h2
    obtain ⟨q, h3⟩ := ih ds.1 (room_right h hn) (by
      intro v hv e
      have hl := hn.len v
      rw [e] at hl
      simp only [List.length_nil] at hl
      by_cases hd : v ∈ o.defs
      · have := List.count_pos_iff.mpr hd
        omega
      · exact hr v (Or.inr ⟨hd, hv⟩) (List.eq_nil_of_length_eq_zero (by omega)))
    simp only [nameOps, h1, h2, h3, Option.bind_some]
    exact ⟨_, rfl⟩

theorem phiIndex_some {ps : List Nat} {p : Nat} (h : p ∈ ps) : ∃ i, phiIndex ps p = some i := by
  obtain ⟨i, hlt, e⟩ := List.getElem_of_mem h
  apply Option.isSome_iff_exists.mp
  rw [phiIndex, List.find?_isSome]
  exact ⟨i, by simp [hlt], by simp [e, hlt]⟩

theorem phiIndex_get {ps : List Nat} {p i : Nat} (h : phiIndex ps p = some i) : ps[i]? = some p := by
  have := List.find?_some h
  simpa using this

theorem nameArgs_some {nm : Names} {s i : Nat} : ∀ (vs : List Nat) (a : Nat → Nat → Nat → Option Nat), vs.Nodup →
    (∀ v ∈ vs, a s v i = none ∧ nm.stk v ≠ []) → ∃ a', nameArgs nm s i vs a = some a' := by
  intro vs
  induction vs with
  | nil => intro a _ _; exact ⟨_, rfl⟩
  | cons v vs ih =>
    intro a hn h
    rw [List.nodup_cons] at hn
    rw [List.forall_mem_cons] at h
    cases hs : nm.stk v with
    | nil => exact absurd hs h.1.2
    | cons k ks =>
      obtain ⟨a', h'⟩ := ih (setArg a s v i k) hn.2 (by
        intro v' hv'
        have hne : ¬ v' = v := fun e => hn.1 (e ▸ hv')
        simp only [setArg, hne, false_and, and_false, if_false]
        exact h.2 v' hv')
      exact ⟨a', by simp only [nameArgs, h.1.1, hs]; exact h'⟩

theorem nameSuccs_some {c : Cfg} {phis : Nat → List Nat} (hph : ∀ b, (phis b).Nodup) {nm : Names} {b : Nat} : ∀ (ss : List Nat)
    (a : Nat → Nat → Nat → Option Nat), ss.Nodup → (∀ s ∈ ss, b ∈ c.preds s) →
    (∀ s ∈ ss, ∀ v ∈ phis s, nm.stk v ≠ [] ∧ ∀ i, phiIndex (c.preds s) b = some i → a s v i = none) →
    ∃ a', nameSuccs c phis nm b ss a = some a' := by
  intro ss
  induction ss with
  | nil => intro a _ _ _; exact ⟨_, rfl⟩
  | cons s ss ih =>
    intro a hn hb h
    rw [List.nodup_cons] at hn
    rw [List.forall_mem_cons] at hb h
    simp only [nameSuccs]
    cases hp : phis s with
    | nil => exact ih a hn.2 hb.2 h.2
    | cons v vs =>
      obtain ⟨i, hi⟩ := phiIndex_some hb.1
      simp only [hi]
      obtain ⟨a1, h1⟩ := nameArgs_some (nm := nm) (s := s) (i := i) (v :: vs) a (hp ▸ hph s) (by
        intro v' hv'
        obtain ⟨x1, x2⟩ := h.1 v' (by rw [hp]; exact hv')
        exact ⟨x2 i hi, x1⟩)
      rw [h1, Option.bind_some]
      refine ih a1 hn.2 hb.2 fun t ht v' hv' => ?_
      obtain ⟨x1, x2⟩ := h.2 t ht v' hv'
      refine ⟨x1, fun j hj => ?_⟩
      by_cases he : a1 t v' j = a t v' j
      · rw [he]; exact x2 j hj
      · exact absurd ht ((nameArgs_only _ _ _ h1 t v' j he).1 ▸ hn.1)

theorem renameBlock_some {c : Cfg} (w : Wf c) {idom : Nat → Option Nat} (hi : IdomOk c idom) {d : Dom} (hd : DomOk c d)
    {phis : Nat → List Nat} {G : List Nat} (P : PhiSpec c idom phis G) (ini : Initialised c) : ∀ (n : Nat) (b : Blk),
    b < c.length → ∀ st : Names × Out, c.length + 1 ≤ n + (d b).length →
    Room (defsIn c phis (visit (domees c idom) n b)) st.1 →
    (∀ v i, idom b = some i → HasName c idom phis v i ∨ Writes v (c.ops i) → st.1.stk v ≠ []) →
    (∀ x ∈ visit (domees c idom) n b, ∀ s v i, phiIndex (c.preds s) x = some i → st.2.args s v i = none) →
    ∃ st', renameBlock c phis G (domees c idom) n b st = some st' := by
  intro n
  induction n with
  | zero =>
    intro b _ st hdep
    have := depth_le hd b
    omega
  | succ n ih =>
    intro b hb st hdep hroom hnames hfree
    simp only [visit] at hroom hfree
    have hnd := (visit_sub w hi (n + 1) b hb).2
    simp only [visit] at hnd
    rw [List.nodup_cons] at hnd
    have hroom' : Room (blockDefs c phis b ++ defsIn c phis ((domees c idom b).flatMap (visit (domees c idom) n))) st.1 := by
      simpa [defsIn] using hroom
    have hlive : ∀ v, LiveAt c v b → v ∈ phis b ∨ st.1.stk v ≠ [] := by
      intro v hl
      cases live_named w hi P ini b hb hl with
      | phi h => exact Or.inl h
      | up h1 h2 => exact Or.inr (hnames v _ h1 (Or.inl h2))
      | written h1 h2 => exact Or.inr (hnames v _ h1 (Or.inr h2))
    -- the block
    obtain ⟨p, hp⟩ := namePhis_some (phis b) st.1 (room_left (room_left hroom'))
    have hpn := namePhis_numbered _ _ _ hp
    have hlive' : ∀ v, LiveAt c v b → p.1.stk v ≠ [] := by
      intro v hl e
      have hlen := hpn.len v
      rw [e] at hlen
      simp only [List.length_nil] at hlen
      rcases hlive v hl with h | h
      · have := List.count_pos_iff.mpr h
        omega
      · exact h (List.eq_nil_of_length_eq_zero (by omega))
    obtain ⟨o, ho⟩ := nameOps_some (c.ops b) p.1 (room_right (room_left hroom') hpn) (fun v hv => hlive' v (LiveAt.read hv))
    have hblk : nameBlock c phis st.1 b = some (o.1, p.2, o.2) := by
      simp only [nameBlock, hp, ho, Option.bind_some]
    have hbn := nameBlock_numbered hblk
    have hon := nameOps_numbered _ _ _ ho
    have hend : ∀ v, HasName c idom phis v b ∨ Writes v (c.ops b) → o.1.stk v ≠ [] := by
      intro v hv e
      have h1 := hon.len v
      have h2 := hpn.len v
      rw [e] at h1
      simp only [List.length_nil] at h1
      rcases hv with hv | ⟨op, hop, hvd⟩
      · cases hv with
        | phi h =>
          have := List.count_pos_iff.mpr h
          omega
        | up h3 h4 => exact hnames v _ h3 (Or.inl h4) (List.eq_nil_of_length_eq_zero (by omega))
        | written h3 h4 => exact hnames v _ h3 (Or.inr h4) (List.eq_nil_of_length_eq_zero (by omega))
      · have : 0 < ((c.ops b).flatMap (·.defs)).count v := List.count_pos_iff.mpr (List.mem_flatMap.mpr ⟨op, hop, hvd⟩)
        omega
    obtain ⟨a, ha⟩ := nameSuccs_some (c := c) P.nodup (nm := o.1) (b := b) (c.succs b) st.2.args (w.nodup' b)
      (fun s hs => (w.edge b s).mp hs) (by
        intro s hs v hv
        refine ⟨?_, fun i hi => hfree b List.mem_cons_self s v i hi⟩
        by_cases hw : Writes v (c.ops b)
        · exact hend v (Or.inr hw)
        · exact hend v (Or.inl (live_named w hi P ini b hb (LiveAt.pass hw hs (P.live s v hv)))))
    -- the children
    have hfold : ∀ (ys : List Nat), (∀ y ∈ ys, y ∈ domees c idom b) → (ys.flatMap (visit (domees c idom) n)).Nodup →
        ∀ st : Names × Out, Room (defsIn c phis (ys.flatMap (visit (domees c idom) n))) st.1 →
        (∀ v, HasName c idom phis v b ∨ Writes v (c.ops b) → st.1.stk v ≠ []) →
        (∀ x ∈ ys.flatMap (visit (domees c idom) n), ∀ s v i, phiIndex (c.preds s) x = some i → st.2.args s v i = none) →
        ∃ st', ys.foldlM (fun st d => renameBlock c phis G (domees c idom) n d st) st = some st' := by
      intro ys
      induction ys with
      | nil => intro _ _ st _ _ _; exact ⟨st, rfl⟩
      | cons y ys ihy =>
        intro hy hnd st hr hn hf
        rw [List.forall_mem_cons] at hy
        rw [List.flatMap_cons] at hnd hf hr
        obtain ⟨n1, n2, n3⟩ := List.nodup_append.mp hnd
        have hr' : Room (defsIn c phis (visit (domees c idom) n y) ++ defsIn c phis (ys.flatMap (visit (domees c idom) n))) st.1 := by
          simpa [defsIn] using hr
        have hyb := (mem_domees hi).mp hy.1
        obtain ⟨y1, y2, y3⟩ := (hi y b).mp hyb
        obtain ⟨st1, h1⟩ := ih y y1 st (by have := depth_lt w hd y1 y3; omega) (room_left hr')
          (fun v i hvi hv => by
            rw [hyb] at hvi
            simp only [Option.some.injEq] at hvi
            subst hvi
            exact hn v hv)
          (fun x hx => hf x (List.mem_append_left _ hx))
        have t := tally_of w hi _ _ y1 _ _ h1
        obtain ⟨st2, h2⟩ := ihy hy.2 n2 st1 (by
            intro v
            have h3 := hr' v
            rw [List.count_append] at h3
            have h4 := t.num v
            have h5 := t.high v
            omega)
          (fun v hv e => by
            have h3 := t.low v
            rw [e] at h3
            exact hn v hv (List.eq_nil_of_length_eq_zero (by simpa using h3)))
          (fun x hx s v i hxi => by
            by_cases he : st1.2.args s v i = st.2.args s v i
            · rw [he]; exact hf x (List.mem_append_right _ hx) s v i hxi
            · obtain ⟨x', hx', hxi'⟩ := t.args s v i he
              have e1 := phiIndex_get hxi
              have e2 := phiIndex_get hxi'
              rw [e1] at e2
              simp only [Option.some.injEq] at e2
              exact absurd e2 (fun e => n3 x' hx' x hx e.symm))
        refine ⟨st2, ?_⟩
        simp only [List.foldlM_cons, Option.bind_eq_bind, h1, Option.bind_some]
        exact h2
    obtain ⟨q, hq⟩ := hfold (domees c idom b) (fun y hy => hy) hnd.2
      (o.1, (⟨upd st.2.phis b p.2, a, upd st.2.ops b o.2, upd st.2.inn b fun v => (st.1.stk v).head?,
        upd st.2.out b fun v => (o.1.stk v).head?⟩ : Out)) (room_right hroom' hbn) hend (by
          intro x hx s v i hxi
          simp only
          by_cases he : a s v i = st.2.args s v i
          · rw [he]; exact hfree x (List.mem_cons_of_mem _ hx) s v i hxi
          · have e1 := phiIndex_get hxi
            have e2 := phiIndex_get (nameSuccs_only _ _ _ ha s v i he).2
            rw [e1] at e2
            simp only [Option.some.injEq] at e2
            exact absurd (e2 ▸ hx) hnd.1)
    simp only [renameBlock, hblk, Option.bind_some, ha, hq]
    exact ⟨_, rfl⟩

/-! ### Counting definitions -/

theorem sum_le_of_nodup {f : Nat → Nat} : ∀ (l m : List Nat), l.Nodup → (∀ x ∈ l, x ∈ m) → (l.map f).sum ≤ (m.map f).sum := by
  have her : ∀ (m : List Nat) (a : Nat), a ∈ m → (m.map f).sum = f a + ((m.erase a).map f).sum := by
    intro m a
    induction m with
    | nil => intro h; simp at h
    | cons y m ih =>
      intro h
      by_cases hy : y = a
      · subst hy; simp
      · rw [List.erase_cons_tail (by simpa using hy)]
        simp only [List.map_cons, List.sum_cons]
        rw [ih ((List.mem_cons.mp h).resolve_left fun e => hy e.symm)]
        omega
  intro l
  induction l with
  | nil => intro m _ _; simp
  | cons a l ih =>
    intro m hn hs
    rw [List.nodup_cons] at hn
    rw [List.forall_mem_cons] at hs
    simp only [List.map_cons, List.sum_cons]
    rw [her m a hs.1]
    have := ih (m.erase a) hn.2 (fun x hx => (List.mem_erase_of_ne (show x ≠ a from fun e => hn.1 (e ▸ hx))).mpr (hs.2 x hx))
    omega

theorem count_flatMap' {α : Type} {f : α → List Nat} {v : Nat} : ∀ (l : List α),
    (l.flatMap f).count v = (l.map fun x => (f x).count v).sum := by
  intro l
  induction l with
  | nil => simp
  | cons a l ih => rw [List.flatMap_cons, List.count_append, ih]; simp

theorem sum_range_get {F : Option Block → Nat} : ∀ (c : Cfg),
    ((List.range c.length).map fun x => F c[x]?).sum = (c.map fun b => F (some b)).sum := by
  intro c
  induction c with
  | nil => simp
  | cons b c ih =>
    rw [List.length_cons, List.range_succ_eq_map]
    simp only [List.map_cons, List.sum_cons, List.map_map]
    have : ((fun x => F (b :: c)[x]?) ∘ Nat.succ) = fun x => F c[x]? := by
      funext x
      simp
    rw [this, ih]
    simp

theorem count_defs {c : Cfg} {idom : Nat → Option Nat} {phis : Nat → List Nat} {G : List Nat}
    (P : PhiSpec c idom phis G) {l : List Nat} (hn : l.Nodup) (hs : ∀ x ∈ l, x < c.length) (v : Nat) :
    (defsIn c phis l).count v ≤ writesOf c v + joins c := by
  rw [defsIn, count_flatMap']
  refine Nat.le_trans (sum_le_of_nodup l (List.range c.length) hn fun x hx => List.mem_range.mpr (hs x hx)) ?_
  have h1 : ∀ x, (blockDefs c phis x).count v ≤ (fun o : Option Block => match o with
      | some b => (b.ops.flatMap (·.defs)).count v + if 2 ≤ b.preds.length then 1 else 0 | none => 0) c[x]? := by
    intro x
    rw [blockDefs, List.count_append]
    have hp : (phis x).count v ≤ if 2 ≤ (c.preds x).length then 1 else 0 := by
      by_cases hv : v ∈ phis x
      · rw [(P.nodup x).count, if_pos hv, if_pos (P.join x v hv).1]
        exact Nat.le_refl _
      · rw [List.count_eq_zero.mpr hv]
        exact Nat.zero_le _
    simp only [Cfg.preds, Cfg.ops] at hp ⊢
    cases hx : c[x]? with
    | none => simpa [hx] using hp
    | some b =>
      simp only [hx] at hp ⊢
      omega
  have h2 : ∀ l : List Nat, (l.map fun x => (blockDefs c phis x).count v).sum ≤ (l.map fun x => (fun o : Option Block => match o with
      | some b => (b.ops.flatMap (·.defs)).count v + if 2 ≤ b.preds.length then 1 else 0 | none => 0) c[x]?).sum := by
    intro l
    induction l with
    | nil => simp
    | cons a l ih =>
      simp only [List.map_cons, List.sum_cons]
      exact Nat.add_le_add (h1 a) ih
  refine Nat.le_trans (h2 _) ?_
  rw [sum_range_get (F := fun o : Option Block => match o with
      | some b => (b.ops.flatMap (·.defs)).count v + if 2 ≤ b.preds.length then 1 else 0 | none => 0) c]
  apply Nat.le_of_eq
  simp only [writesOf, joins]
  rw [count_flatMap']
  generalize c = c
  induction c with
  | nil => simp
  | cons b c ih =>
    simp only [List.map_cons, List.sum_cons, List.filter_cons]
    rw [ih]
    by_cases hb : 2 ≤ b.preds.length
    · simp only [hb, if_true, decide_true, List.length_cons]; omega
    · simp only [hb, if_false, decide_false, Bool.false_eq_true]; omega

theorem rename_some {c : Cfg} (w : Wf c) {idom : Nat → Option Nat} (hi : IdomOk c idom) {d : Dom} (hd : DomOk c d)
    {phis : Nat → List Nat} {G : List Nat} (P : PhiSpec c idom phis G) (ini : Initialised c)
    (hb : ∀ v, writesOf c v + joins c ≤ 127) : ∃ O, rename c phis G (domees c idom) = some O := by
  obtain ⟨v1, v2⟩ := visit_sub w hi c.length 0 w.nonempty
  obtain ⟨st', h⟩ := renameBlock_some w hi hd (G := G) P ini c.length 0 w.nonempty
    (⟨fun _ => 0, fun _ => []⟩, ⟨fun _ => [], fun _ _ _ => none, fun _ => [], fun _ _ => none, fun _ _ => none⟩)
    (by have := depth_pos hd w.nonempty; omega)
    (by
      intro v
      have := count_defs P v2 (fun x hx => (v1 x hx).1) v
      have := hb v
      simp only [List.length_nil]
      omega)
    (fun v i h => by
      have := (hi 0 i).mp h
      exact absurd rfl this.2.1)
    (fun _ _ _ _ _ _ => rfl)
  exact ⟨st'.2, by simp only [rename, h, Option.map_some]⟩

end Nature.Ssa
