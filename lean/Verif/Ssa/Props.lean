/-
C61-C64: dominators, live variables and the conversion to single assignment form.
-/
import Verif.Ssa.Total
namespace Nature.Ssa

/-! ### Example: `x = …; while (x …) { x = … x … }; … x …` -/

/-- Entry, loop head, body, exit. -/
def loop : Cfg := [⟨[⟨[], [0], 1⟩], [], [1]⟩, ⟨[⟨[0], [], 2⟩], [0, 2], [2, 3]⟩, ⟨[⟨[0], [0], 3⟩], [1], [1]⟩, ⟨[⟨[0], [], 4⟩], [1], []⟩]

/-- `x = …; if (…) { x = …; use(x); return }; use(x)`. -/
def early : Cfg := [⟨[⟨[], [0], 1⟩], [], [1, 2]⟩, ⟨[⟨[], [0], 2⟩, ⟨[0], [], 3⟩], [0], [3]⟩, ⟨[⟨[0], [], 4⟩], [0], [3]⟩,
  ⟨[], [1, 2], []⟩]

/-- A graph of at most `n` blocks satisfies the conditions if a check over those blocks succeeds. -/
theorem wf_of {c : Cfg} (h0 : 0 < c.length) (h1 : c.preds 0 = [])
    (h2 : ∀ p, p < c.length → (∀ s ∈ c.succs p, s < c.length ∧ p ∈ c.preds s) ∧ (∀ s ∈ c.preds p, s < c.length ∧ p ∈ c.succs s))
    (h3 : ∀ p, p < c.length → (c.preds p).Nodup ∧ (c.succs p).Nodup)
    (h4 : ∀ b, b < c.length → ∃ l, Walk c l b) : Wf c := by
  have hp : ∀ b, ¬ b < c.length → c.preds b = [] := by
    intro b hb
    simp only [Cfg.preds, List.getElem?_eq_none (Nat.le_of_not_lt hb)]
  have hs : ∀ b, ¬ b < c.length → c.succs b = [] := by
    intro b hb
    simp only [Cfg.succs, List.getElem?_eq_none (Nat.le_of_not_lt hb)]
  refine ⟨h0, h1, fun p s => ⟨fun h => ?_, fun h => ?_⟩, fun b => ?_, fun b => ?_, h4⟩
  · by_cases hb : p < c.length
    · exact ((h2 p hb).1 s h).2
    · rw [hs p hb] at h; simp at h
  · by_cases hb : s < c.length
    · exact ((h2 s hb).2 p h).2
    · rw [hp s hb] at h; simp at h
  · by_cases hb : b < c.length
    · exact (h3 b hb).1
    · rw [hp b hb]; exact List.nodup_nil
  · by_cases hb : b < c.length
    · exact (h3 b hb).2
    · rw [hs b hb]; exact List.nodup_nil

theorem loop_wf : Wf loop := by
  refine wf_of (by decide) (by decide) (by decide) (by decide) fun b hb => ?_
  have w1 : Walk loop [1, 0] 1 := Walk.step Walk.entry (by decide)
  match b, hb with
  | 0, _ => exact ⟨_, Walk.entry⟩
  | 1, _ => exact ⟨_, w1⟩
  | 2, _ => exact ⟨_, Walk.step w1 (by decide)⟩
  | 3, _ => exact ⟨_, Walk.step w1 (by decide)⟩

theorem early_wf : Wf early := by
  refine wf_of (by decide) (by decide) (by decide) (by decide) fun b hb => ?_
  have w1 : Walk early [1, 0] 1 := Walk.step Walk.entry (by decide)
  match b, hb with
  | 0, _ => exact ⟨_, Walk.entry⟩
  | 1, _ => exact ⟨_, w1⟩
  | 2, _ => exact ⟨_, Walk.step Walk.entry (by decide)⟩
  | 3, _ => exact ⟨_, Walk.step w1 (by decide)⟩

/-- If the entry writes every variable that some block reads first, no variable is read before it is written. -/
theorem initialised_of {c : Cfg} (h : ∀ v, (∃ b, ReadsFirst v (c.ops b)) → Writes v (c.ops 0) ∧ ¬ ReadsFirst v (c.ops 0)) :
    Initialised c := by
  intro v hl
  have hr : ∃ b, ReadsFirst v (c.ops b) := by
    generalize (0 : Nat) = b at hl
    induction hl with
    | read h => exact ⟨_, h⟩
    | pass _ _ _ ih => exact ih
  obtain ⟨h1, h2⟩ := h v hr
  cases hl with
  | read h => exact h2 h
  | pass h _ _ => exact h h1

theorem loop_initialised : Initialised loop := by
  refine initialised_of fun v ⟨b, hb⟩ => ?_
  have hv : v = 0 := by
    match b with
    | 0 => simp [loop, Cfg.ops, ReadsFirst] at hb
    | 1 => simpa [loop, Cfg.ops, ReadsFirst] using hb
    | 2 => simpa [loop, Cfg.ops, ReadsFirst] using hb
    | 3 => simpa [loop, Cfg.ops, ReadsFirst] using hb
    | b + 4 => simp [loop, Cfg.ops, ReadsFirst] at hb
  subst hv
  simp [loop, Cfg.ops, ReadsFirst, Writes]

theorem early_initialised : Initialised early := by
  refine initialised_of fun v ⟨b, hb⟩ => ?_
  have hv : v = 0 := by
    match b with
    | 0 => simp [early, Cfg.ops, ReadsFirst] at hb
    | 1 =>
      simp [early, Cfg.ops, ReadsFirst] at hb
    | 2 => simpa [early, Cfg.ops, ReadsFirst] using hb
    | 3 => simp [early, Cfg.ops, ReadsFirst] at hb
    | b + 4 => simp [early, Cfg.ops, ReadsFirst] at hb
  subst hv
  simp [early, Cfg.ops, ReadsFirst, Writes]

/-! ### C61: dominators -/

/-- C61.  The blocks listed as dominators of a block are those that every way from the entry to it passes. -/
theorem C61_dominators {c : Cfg} (w : Wf c) {fuel : Nat} {d : Dom} (h : domers c fuel = some d) :
    ∀ b, b < c.length → (d b).Nodup ∧ ∀ x, x ∈ d b ↔ Dominates c x b := by
  obtain ⟨h1, h2⟩ := domers_spec w h
  intro b hb
  obtain ⟨P, e⟩ := h1 b
  refine ⟨?_, h2 b hb⟩
  rw [e]
  exact List.nodup_range.sublist List.filter_sublist

/-- C61.  The loop ends: after at most `(n - 1) * n` rounds for `n` blocks. -/
theorem C61_terminates {c : Cfg} (w : Wf c) (hn : c.length ≤ 65535) {fuel : Nat} (hf : (c.length - 1) * c.length < fuel) :
    ∃ d, domers c fuel = some d := by
  simp only [domers]
  rw [if_neg (by omega)]
  exact domLoop_terminates _ _ (shrink_init w.nonempty) (Nat.lt_of_le_of_lt (domSize_init c) hf)

/-- C61.  Every block but the entry gets an immediate dominator: the last of its dominators before itself; the entry gets
none. -/
theorem C61_immediate {c : Cfg} (w : Wf c) {fuel : Nat} {d : Dom} (h : domers c fuel = some d) :
    ∃ idom, immDomers c d = some idom ∧ (∀ i, idom 0 ≠ some i) ∧
      ∀ b, b < c.length → b ≠ 0 → ∃ i, idom b = some i ∧ ImmDom c i b ∧ ∀ j, ImmDom c j b → j = i := by
  have hd := (domers_spec w h).2
  obtain ⟨idom, hi⟩ := immDomers_some w hd
  have ho := immDomers_spec w hd hi
  refine ⟨idom, hi, fun i e => ((ho 0 i).mp e).2.1 rfl, fun b hb h0 => ?_⟩
  obtain ⟨i, him⟩ := immDom_exists w hb h0
  refine ⟨i, (ho b i).mpr ⟨hb, h0, him⟩, him, fun j hj => ?_⟩
  have e1 := (ho b i).mpr ⟨hb, h0, him⟩
  rw [(ho b j).mpr ⟨hb, h0, hj⟩] at e1
  exact Option.some.inj e1

example : (domers loop 5).map (fun d => (List.range 4).map d) = some [[0], [0, 1], [0, 1, 2], [0, 1, 3]] := by decide +kernel
example : ∀ d, domers loop 5 = some d → (3 ∈ d 2 ↔ Dominates loop 3 2) := fun d h => (C61_dominators loop_wf h 2 (by decide)).2 3

/-! ### C62: live variables -/

/-- The variables that some block reads before it writes them. -/
def Shared (c : Cfg) (v : Var) : Prop := ∃ b, ReadsFirst v (c.ops b)

/-- C62, when the analysis ends: the variables listed at the beginning and at the end of a block are those whose value may
still be read. -/
theorem C62_exact {c : Cfg} (w : Wf c) {fuel : Nat} {l : Live} (h : live c (useDef c) fuel = some l) :
    ∀ b, b < c.length → ∀ v, (v ∈ l.inn b ↔ LiveAt c v b) ∧ (v ∈ l.out b ↔ ∃ s ∈ c.succs b, LiveAt c v s) :=
  fun b hb v => ⟨(live_spec w h).1 b hb v, (live_spec w h).2.1 b hb v⟩

/-- C62, in part: the analysis ends if fewer than 256 variables are shared between blocks.  Missing: more variables, where
it is false (C62_endless_counterexample). -/
theorem C62_terminates_partial {c : Cfg} {vs : List Var} (hv : ∀ v, Shared c v → v ∈ vs) (hl : vs.length < 256) {fuel : Nat}
    (hf : c.length * (2 * 256) < fuel) : ∃ l, live c (useDef c) fuel = some l := by
  have u := useDef_spec c
  have hg : (useDef c).globals.length < 256 :=
    Nat.lt_of_le_of_lt (nodup_len _ vs u.nodup fun v h => hv v ((u.globals v).mp h)).1 hl
  refine liveLoop_terminates u hg fuel _ ⟨by simp, by simp, by simp, by simp, by simp, by simp⟩ ?_
  have : c.length * (2 * (useDef c).globals.length) ≤ c.length * (2 * 256) := Nat.mul_le_mul_left _ (by omega)
  omega

/-- C62 fails: if 256 variables are live at the beginning of some block, the analysis never ends. -/
theorem C62_endless {c : Cfg} (w : Wf c) {b : Blk} (hb : b < c.length) {vs : List Var} (hn : vs.Nodup) (hl : 256 ≤ vs.length)
    (h : ∀ v ∈ vs, LiveAt c v b) (fuel : Nat) : live c (useDef c) fuel = none := by
  cases e : live c (useDef c) fuel with
  | none => rfl
  | some l =>
    obtain ⟨h1, _, h3⟩ := live_spec w e
    have := (nodup_len vs (l.inn b) hn fun v hv => (h1 b hb v).mpr (h v hv)).1
    have := h3 b hb
    omega

/-- 256 variables are written, and read in the next block. -/
def wide : Cfg := [⟨[⟨[], List.range 256, 1⟩], [], [1]⟩, ⟨[⟨List.range 256, [], 2⟩], [0], []⟩]

theorem wide_wf : Wf wide := by
  refine wf_of (by decide) rfl ?_ ?_ fun b hb => ?_
  · intro p hp
    match p, hp with
    | 0, _ => exact ⟨by simp [wide, Cfg.succs, Cfg.preds], by simp [wide, Cfg.preds]⟩
    | 1, _ => exact ⟨by simp [wide, Cfg.succs], by simp [wide, Cfg.succs, Cfg.preds]⟩
  · intro p hp
    match p, hp with
    | 0, _ => simp [wide, Cfg.preds, Cfg.succs]
    | 1, _ => simp [wide, Cfg.preds, Cfg.succs]
  · match b, hb with
    | 0, _ => exact ⟨_, Walk.entry⟩
    | 1, _ => exact ⟨_, Walk.step Walk.entry (by simp [wide, Cfg.succs])⟩

/-- C62 fails: a function of two blocks on which the compiler does not end, though every variable is written before it is
read. -/
theorem C62_endless_counterexample : Wf wide ∧ Initialised wide ∧ ∀ fuel, live wide (useDef wide) fuel = none := by
  refine ⟨wide_wf, initialised_of fun v ⟨b, hb⟩ => ?_, fun fuel => ?_⟩
  · have hv : v < 256 := by
      match b with
      | 0 => simp [wide, Cfg.ops, ReadsFirst] at hb
      | 1 => simpa [wide, Cfg.ops, ReadsFirst] using hb
      | b + 2 => simp [wide, Cfg.ops, ReadsFirst] at hb
    simp only [wide, Cfg.ops, List.getElem?_cons_zero, Writes, ReadsFirst, List.mem_singleton, exists_eq_left, List.mem_range]
    exact ⟨hv, by simp⟩
  · refine C62_endless wide_wf (b := 1) (by decide) (vs := List.range 256) List.nodup_range (by simp) (fun v hv => ?_) fuel
    refine LiveAt.read ?_
    simp only [wide, Cfg.ops, List.getElem?_cons_succ, List.getElem?_cons_zero, ReadsFirst]
    exact Or.inl hv

example : ∃ l, live loop (useDef loop) 3000 = some l ∧ (0 ∈ l.inn 2 ↔ LiveAt loop 0 2) := by
  obtain ⟨l, h⟩ := C62_terminates_partial (c := loop) (vs := [0]) (fuel := 3000) (by
    intro v ⟨b, hb⟩
    match b with
    | 0 => simp [loop, Cfg.ops, ReadsFirst] at hb
    | 1 => simpa [loop, Cfg.ops, ReadsFirst] using hb
    | 2 => simpa [loop, Cfg.ops, ReadsFirst] using hb
    | 3 => simpa [loop, Cfg.ops, ReadsFirst] using hb
    | b + 4 => simp [loop, Cfg.ops, ReadsFirst] at hb) (by decide) (by decide)
  exact ⟨l, h, (C62_exact loop_wf h 2 (by decide) 0).1⟩

/-! ### C63: what the function does -/

/-- Every variable that is written in two blocks has a phi function. -/
def Merged (c : Cfg) (O : Out) : Prop :=
  ∀ v x y, x ≠ y → Writes v (c.ops x) → Writes v (c.ops y) → ∃ b k, (v, k) ∈ O.phis b

theorem renameBlock_phis {c : Cfg} {phis : Nat → List Nat} {G : List Nat} {tree : Nat → List Nat} : ∀ (n b : Nat)
    (st st' : Names × Out), renameBlock c phis G tree n b st = some st' →
    ∀ x, (st'.2.phis x).map (·.1) = phis x ∨ st'.2.phis x = st.2.phis x := by
  intro n
  induction n with
  | zero => intro b st st' h; simp [renameBlock] at h
  | succ n ih =>
    intro b st st' h x
    simp only [renameBlock, Option.bind_eq_some_iff] at h
    obtain ⟨r, h1, a, h2, q, h3, h4⟩ := h
    simp only [Option.some.injEq] at h4
    subst h4
    have hf : ∀ (ys : List Nat) (st st' : Names × Out), ys.foldlM (fun st d => renameBlock c phis G tree n d st) st = some st' →
        (st'.2.phis x).map (·.1) = phis x ∨ st'.2.phis x = st.2.phis x := by
      intro ys
      induction ys with
      | nil => intro st st' h; simp at h; exact Or.inr (by rw [h])
      | cons y ys ihy =>
        intro st st' h
        simp only [List.foldlM_cons, Option.bind_eq_bind, Option.bind_eq_some_iff] at h
        obtain ⟨s1, g1, g2⟩ := h
        rcases ihy _ _ g2 with e | e
        · exact Or.inl e
        · rcases ih _ _ _ g1 x with e' | e'
          · exact Or.inl (by rw [e]; exact e')
          · exact Or.inr (e.trans e')
    rcases hf _ _ _ h3 with e | e
    · exact Or.inl e
    · simp only at e
      by_cases hx : x = b
      · subst hx
        left
        simp only [nameBlock, Option.bind_eq_some_iff] at h1
        obtain ⟨p, p1, o, _, p2⟩ := h1
        simp only [Option.some.injEq] at p2
        subst p2
        rw [e]
        simp only [upd, if_true]
        exact (namePhis_spec _ _ _ p1).2.1
      · right
        rw [e]
        simp [upd, hx]

theorem oneBlock_of {c : Cfg} {idom : Nat → Option Nat} {phis : Nat → List Nat} {G : List Nat} (P : PhiSpec c idom phis G)
    {O : Out} (h : rename c phis G (domees c idom) = some O) (hm : Merged c O) : OneBlock c phis G := by
  simp only [rename, Option.map_eq_some_iff] at h
  obtain ⟨st', h1, rfl⟩ := h
  intro v hv x y hx hy
  have hw : ∀ z, v ∈ blockDefs c phis z → Writes v (c.ops z) := by
    intro z hz
    rcases mem_blockDefs.mp hz with h | h
    · exact absurd ((P.merged v).mpr ⟨z, h⟩) hv
    · exact h
  by_cases hxy : x = y
  · exact hxy
  obtain ⟨b, k, hk⟩ := hm v x y hxy (hw x hx) (hw y hy)
  exfalso
  rcases renameBlock_phis _ _ _ _ h1 b with e | e
  · refine hv ((P.merged v).mpr ⟨b, ?_⟩)
    rw [← e]
    exact List.mem_map.mpr ⟨_, hk, rfl⟩
  · rw [e] at hk
    simp at hk

/-- C63, in part: whatever operations do, the converted function does the same, step by step, and reads nothing that has no
value.  Missing: functions in which a variable written in two blocks has no phi function, where it is false
(C63_counterexample). -/
theorem C63_same_partial {V W : Type} [Inhabited V] {c : Cfg} (w : Wf c) (ini : Initialised c) {fuel : Nat} {O : Out}
    (h : ssa c fuel = some O) (hm : Merged c O) (I : Interp V W) (e : Var → V) (es : Var × Nat → V) (w0 : W) (n : Nat) :
    ∃ ss, runS c O I ⟨.start, es, w0⟩ n = some ss ∧ ss.pos = (run c I ⟨.start, e, w0⟩ n).pos ∧
      ss.world = (run c I ⟨.start, e, w0⟩ n).world := by
  obtain ⟨idom, phis, G, hi, P, hr⟩ := ssa_pieces w h
  have one := oneBlock_of P hr hm
  obtain ⟨ss, h1, h2⟩ := run_sim I w hi (rename_conv w hi one hr) one P ini e es w0 n
  exact ⟨ss, h1, h2.1, h2.2.1⟩

example : ∃ O, ssa loop 10 = some O ∧ Merged loop O := by
  have : ∃ O, ssa loop 10 = some O ∧ (0, 2) ∈ O.phis 1 := by
    refine ⟨(ssa loop 10).get (by decide +kernel), by simp, by decide +kernel⟩
  obtain ⟨O, h1, h2⟩ := this
  refine ⟨O, h1, fun v x y _ hx _ => ⟨1, 2, ?_⟩⟩
  have hv : v = 0 := by
    match x with
    | 0 => simpa [loop, Cfg.ops, Writes] using hx
    | 1 => simp [loop, Cfg.ops, Writes] at hx
    | 2 => simpa [loop, Cfg.ops, Writes] using hx
    | 3 => simp [loop, Cfg.ops, Writes] at hx
    | x + 4 => simp [loop, Cfg.ops, Writes] at hx
  rw [hv]
  exact h2

/-- Operation 1 yields 1, operation 2 yields 2; the others append what they read to the output.  The second way is taken. -/
def tell : Interp Nat (List Nat) :=
  ⟨fun w code vs => if code ≤ 2 then (w, fun _ => code) else (w ++ vs, fun _ => 0), fun w => if w = [] then 1 else 0⟩

/-- C63 fails: `x = 1; if (false) { x = 2; use(x); return }; use(x)` uses the name of the other assignment: where the
original function prints 1, the converted one prints whatever `x.s2` holds, here 7. -/
theorem C63_counterexample : Wf early ∧ Initialised early ∧ ∃ O, ssa early 10 = some O ∧
    (run early tell ⟨.start, fun _ => 7, []⟩ 2).world = [1] ∧
    (runS early O tell ⟨.start, fun _ => 7, []⟩ 2).map (·.world) = some [7] :=
  ⟨early_wf, early_initialised, (ssa early 10).get (by decide +kernel), by simp, by decide +kernel, by decide +kernel⟩

/-! ### C64: names -/

/-- All names to which the converted function assigns, phi functions and operations, in all blocks. -/
def allNames (c : Cfg) (O : Out) : List (Var × Nat) :=
  (List.range c.length).flatMap fun b => O.phis b ++ (O.ops b).flatMap (·.defs)

/-- C64, in part: no name is assigned twice, if no variable is written more than 128 times (joins counted).  Missing: more
writes, where it is false (C64_repeat_counterexample). -/
theorem C64_once_partial {c : Cfg} (w : Wf c) {fuel : Nat} {O : Out} (h : ssa c fuel = some O)
    (hb : ∀ v, writesOf c v + joins c ≤ 128) : (allNames c O).Nodup := by
  obtain ⟨idom, phis, G, hi, P, hr⟩ := ssa_pieces w h
  simp only [rename, Option.map_eq_some_iff] at hr
  obtain ⟨st', h1, rfl⟩ := hr
  have t := tally_of w hi _ _ w.nonempty _ _ h1
  obtain ⟨v1, v2⟩ := visit_sub w hi c.length 0 w.nonempty
  refine nodup_reorder (l := visit (domees c idom) c.length 0) List.nodup_range
    (fun x hx => visit_all w hi _ _ w.nonempty _ _ h1 x ⟨List.mem_range.mp hx, dom_zero x⟩) ?_
  refine nodup_of_namesOf fun v => ?_
  have e := t.names v
  change (namesOf v ((visit (domees c idom) c.length 0).flatMap (outNames st'.2))).Nodup
  rw [e]
  exact seq_nodup (Nat.le_trans (count_defs P v2 (fun x hx => (v1 x hx).1) v) (hb v))

/-- C64, in part: the conversion succeeds if no variable is written more than 127 times (joins counted), and fewer than 256
variables are shared between blocks.  Missing: more, where it is false (C64_abort_counterexample, C62_endless_counterexample). -/
theorem C64_succeeds_partial {c : Cfg} (w : Wf c) (ini : Initialised c) (hn : c.length ≤ 65535) {vs : List Var}
    (hv : ∀ v, Shared c v → v ∈ vs) (hl : vs.length < 256) (hb : ∀ v, writesOf c v + joins c ≤ 127) :
    ∃ O N, ∀ fuel, N ≤ fuel → ssa c fuel = some O := by
  obtain ⟨d, h1⟩ := C61_terminates w hn (Nat.lt_succ_self _)
  obtain ⟨l1, l2⟩ := domers_spec w h1
  have hd : DomOk c d := ⟨l1, l2⟩
  obtain ⟨idom, h2⟩ := immDomers_some w hd.mem
  have hi := immDomers_spec w hd.mem h2
  obtain ⟨df, h3⟩ := ssaDf_some w hi hd
  obtain ⟨l, h4⟩ := C62_terminates_partial hv hl (Nat.lt_succ_self _)
  obtain ⟨_, d2, _⟩ := dfBlocks_spec _ _ _ h3
  obtain ⟨n, ins, h5⟩ := addPhis_some (li := l.inn) w ini (df := df) (fun x y hy => by
    rcases d2 x y hy with h | h
    · simp at h
    · exact List.mem_range.mp h.1) (useDef c).globals (fun v h => h) (fun _ => [])
  have P := phiSpec_of h3 (live_spec w h4).1 h5
  obtain ⟨O, h6⟩ := rename_some w hi hd P ini hb
  refine ⟨O, (c.length - 1) * c.length + 1 + (c.length * (2 * 256) + 1) + n, fun fuel hf => ?_⟩
  have g1 : domers c fuel = some d := by
    simp only [domers] at h1 ⊢
    split at h1
    · simp at h1
    · rename_i hlen
      rw [if_neg hlen]
      exact domLoop_mono _ _ _ _ (by omega) h1
  have g4 : live c (useDef c) fuel = some l := liveLoop_mono _ _ _ _ (by omega) h4
  have g5 := addPhis_mono (m := fuel) (by omega) _ _ _ h5
  simp only [ssa, g1, h2, h3, g4, g5, Option.bind_some]
  exact h6

example : ∃ O N, ∀ fuel, N ≤ fuel → ssa loop fuel = some O := by
  refine C64_succeeds_partial (vs := [0]) loop_wf loop_initialised (by decide) ?_ (by decide) ?_
  · intro v ⟨b, hb⟩
    match b with
    | 0 => simp [loop, Cfg.ops, ReadsFirst] at hb
    | 1 => simpa [loop, Cfg.ops, ReadsFirst] using hb
    | 2 => simpa [loop, Cfg.ops, ReadsFirst] using hb
    | 3 => simpa [loop, Cfg.ops, ReadsFirst] using hb
    | b + 4 => simp [loop, Cfg.ops, ReadsFirst] at hb
  · intro v
    have h1 : writesOf loop v ≤ 2 := by
      have : (loop.flatMap fun b => b.ops.flatMap (·.defs)) = [0, 0] := by decide
      rw [writesOf, this]
      exact List.count_le_length
    have h2 : joins loop = 1 := by decide
    omega

/-- `x` is written `n` times in a row. -/
def many (n : Nat) : Cfg := [⟨List.replicate n ⟨[], [0], 1⟩, [], []⟩]

/-- C64 fails: with 129 assignments to a variable the first and the last get the same name. -/
theorem C64_repeat_counterexample : Initialised (many 129) ∧ ∃ O, ssa (many 129) 5 = some O ∧ ¬ (allNames (many 129) O).Nodup := by
  refine ⟨?_, (ssa (many 129) 5).get (by decide +kernel), by simp, by decide +kernel⟩
  refine initialised_of fun v ⟨b, hb⟩ => ?_
  have hr : ∀ n, ¬ ReadsFirst v (List.replicate n ⟨[], [0], 1⟩) := by
    intro n
    induction n with
    | zero => simp [ReadsFirst]
    | succ n ih => simp [List.replicate_succ, ReadsFirst, ih]
  match b with
  | 0 => exact absurd hb (hr 129)
  | b + 1 => simp [many, Cfg.ops, ReadsFirst] at hb

/-- `x` is written 128 times, then in a loop. -/
def manyLoop : Cfg := [⟨List.replicate 128 ⟨[], [0], 1⟩, [], [1]⟩, ⟨[⟨[0], [], 2⟩], [0, 2], [2, 3]⟩, ⟨[⟨[0], [0], 3⟩], [1], [1]⟩,
  ⟨[⟨[0], [], 4⟩], [1], []⟩]

theorem manyLoop_wf : Wf manyLoop := by
  refine wf_of (by decide) (by decide) (by decide) (by decide) fun b hb => ?_
  have w1 : Walk manyLoop [1, 0] 1 := Walk.step Walk.entry (by decide)
  match b, hb with
  | 0, _ => exact ⟨_, Walk.entry⟩
  | 1, _ => exact ⟨_, w1⟩
  | 2, _ => exact ⟨_, Walk.step w1 (by decide)⟩
  | 3, _ => exact ⟨_, Walk.step w1 (by decide)⟩

/-- C64 fails: the 129th name being that of a phi function, an assertion of the compiler fails. -/
theorem C64_abort_counterexample : Wf manyLoop ∧ Initialised manyLoop ∧ ∀ fuel, ssa manyLoop fuel = none := by
  refine ⟨manyLoop_wf, initialised_of fun v ⟨b, hb⟩ => ?_, ssa_none (n := 300) (by decide +kernel) (by decide +kernel)⟩
  have hr : ∀ n, ¬ ReadsFirst v (List.replicate n ⟨[], [0], 1⟩) := by
    intro n
    induction n with
    | zero => simp [ReadsFirst]
    | succ n ih => simp [List.replicate_succ, ReadsFirst, ih]
  have hv : v = 0 := by
    match b with
    | 0 => exact absurd hb (hr 128)
    | 1 => simpa [manyLoop, Cfg.ops, ReadsFirst] using hb
    | 2 => simpa [manyLoop, Cfg.ops, ReadsFirst] using hb
    | 3 => simpa [manyLoop, Cfg.ops, ReadsFirst] using hb
    | b + 4 => simp [manyLoop, Cfg.ops, ReadsFirst] at hb
  refine ⟨⟨⟨[], [0], 1⟩, ?_, ?_⟩, hr 128⟩
  · exact List.mem_replicate.mpr ⟨by decide, rfl⟩
  · rw [hv]; exact List.mem_singleton.mpr rfl

end Nature.Ssa
