import Verif.Alloc.Look
/-
C87: after register allocation every live variable has a place of its own, and moves connect the
places.
-/
namespace Nature.Alloc
open Nature.Ranges (Range Covers Sorted NonEmpty)

/-! ### two functions for the examples -/

/-- Two blocks, two registers, a call at 14 that takes register 2, four variables. -/
def demoBlocks : List Blk := [⟨0, 28, 1, 0, -1, false⟩, ⟨30, 60, 0, 0, -1, false⟩]

def demo : Func :=
  ⟨⟨demoBlocks, 3, fun _ => .int⟩, (fun r => if r = 2 then [⟨14, 15⟩] else []),
    [⟨[⟨4, 44⟩], [⟨4, .must⟩, ⟨18, .stack⟩, ⟨44, .should⟩], 8, .int, 0, none, [], false⟩,
     ⟨[⟨6, 58⟩], [⟨6, .must⟩, ⟨16, .must⟩, ⟨36, .must⟩, ⟨58, .must⟩], 8, .int, 0, none, [], false⟩,
     ⟨[⟨34, 38⟩], [⟨34, .must⟩, ⟨38, .must⟩], 4, .int, 0, none, [], false⟩,
     ⟨[⟨38, 48⟩], [⟨38, .must⟩, ⟨48, .must⟩], 8, .int, 0, none, [], false⟩], 0⟩

theorem demo_ok : demo.Ok := by
  have gap : ∀ u : Int, (u ≤ 26 ∨ 31 < u) → NoGap demo.cfg.blocks u := by
    intro u hu q b h
    rcases next_cons.1 h with ⟨rfl, rfl⟩ | h
    · simpa using hu
    · exact absurd h next_one
  refine ⟨⟨?_, ?_⟩, ?_, ?_, by decide⟩
  · intro q b h
    rcases next_cons.1 h with ⟨rfl, rfl⟩ | h
    · decide
    · exact absurd h next_one
  · decide
  · intro v hv
    simp only [demo, List.mem_cons, List.not_mem_nil, or_false] at hv
    rcases hv with rfl | rfl | rfl | rfl
    all_goals
      refine ⟨by simp [Sorted], by simp [NonEmpty], by simp, ?_, by decide, ?_⟩
      · intro b hb; cases hb; simp
      · intro u hu
        simp only [List.mem_cons, List.not_mem_nil, or_false] at hu
        rcases hu with rfl | rfl | rfl | rfl
        all_goals first
          | exact .inl ⟨_, rfl, rfl⟩
          | exact .inr ⟨⟨_, List.mem_cons_self .., by decide, by decide⟩, gap _ (by decide)⟩
  · intro r
    simp only [demo]
    by_cases h : r = 2
    · rw [if_pos h]; exact ⟨by simp [Sorted], by simp [NonEmpty]⟩
    · rw [if_neg h]; exact ⟨trivial, by simp [NonEmpty]⟩

theorem demo_noHoist : NoHoist demo := by
  intro b hb
  simp only [demo, demoBlocks, List.mem_cons, List.not_mem_nil, or_false] at hb
  rcases hb with rfl | rfl <;> exact .inl rfl

/-- The walk on `demo` ends. -/
theorem demo_run : (run demo 100).isSome = true := by decide +kernel

/-! ### every variable has a place -/

theorem place_out {F : Func} (hF : F.Ok) (hno : NoHoist F) {fuel : Nat} {s : St}
    (h : run F fuel = some s) {k : Nat} {v : Var} (hk : F.vars[k]? = some v) {p : Int}
    (hp : Live v p) : ∃ P x, Inv F P [] s ∧ place F s k p false = some (homeOf s x) ∧
      x ∈ (F.cfg.nregs + k) :: (s.heap (F.cfg.nregs + k)).children ∧ Covers (s.heap x).ranges p ∧
      ((s.heap x).assigned ≠ 0 ∨ (s.heap x).spilled = true) := by
  obtain ⟨P, I, hu⟩ := run_inv hF hno h
  obtain ⟨x, e, hx, hc⟩ := childAt_out I.geo hk hp
  obtain ⟨a, b, _⟩ := part_facts I.geo hk hx
  refine ⟨P, x, I, by rw [place, e]; rfl, hx, hc, ?_⟩
  have := I.stat x a b (by simp)
  rw [hu] at this
  simpa using this

theorem homeOf_cases (s : St) (x : Nat) :
    ((s.heap x).spilled = false ∧ homeOf s x = .reg (s.heap x).assigned) ∨
    ((s.heap x).spilled = true ∧ (s.heap (rootOf s x)).constFloat = true ∧ homeOf s x = .again) ∨
    ((s.heap x).spilled = true ∧ (s.heap (rootOf s x)).constFloat = false ∧
      homeOf s x = .stack (s.slots (rootOf s x)) (s.heap x).size) := by
  rw [homeOf]
  cases h : (s.heap x).spilled with
  | false => left; exact ⟨rfl, by simp⟩
  | true =>
    right
    cases h2 : (s.heap (rootOf s x)).constFloat with
    | true => left; rw [rootOf] at h2; simp [h2]
    | false => right; rw [rootOf] at h2; simp [h2, rootOf]

/-- C87 (partial), one place each: when register allocation ends, two variables that are live at the
same position both have a place there, and the places are different registers or stack slots that
do not overlap.  Missing: functions in which a split is moved out of a loop without calls
(`C87_loop_counterexample`), variables that had their register before the walk, the construction of
the live ranges, and the moves on block edges (C37). -/
theorem C87_homes_partial {F : Func} (hF : F.Ok) (hno : NoHoist F) {fuel : Nat} {s : St}
    (h : run F fuel = some s) {k k' : Nat} {v v' : Var} (hk : F.vars[k]? = some v)
    (hk' : F.vars[k']? = some v') (hkk : k ≠ k') (hp : v.preset = 0) (hp' : v'.preset = 0) {p : Int}
    (hl : Live v p) (hl' : Live v' p) :
    ∃ a b, place F s k p false = some a ∧ place F s k' p false = some b ∧ Apart a b := by
  obtain ⟨P, x, I, e, hx, hc, hs⟩ := place_out hF hno h hk hl
  obtain ⟨_, y, _, e', hy, hc', hs'⟩ := place_out hF hno h hk' hl'
  refine ⟨_, _, e, e', ?_⟩
  obtain ⟨x1, x2, x3, x4, _, x6⟩ := part_facts I.geo hk hx
  obtain ⟨y1, y2, y3, y4, _, y6⟩ := part_facts I.geo hk' hy
  have hne : x ≠ y := by rintro rfl; omega
  rcases homeOf_cases s x with ⟨a, b⟩ | ⟨a, _, b⟩ | ⟨a, a', b⟩
  · rcases homeOf_cases s y with ⟨c, d⟩ | ⟨c, _, d⟩ | ⟨c, _, d⟩
    · rw [b, d]
      intro heq
      have hx0 : (s.heap x).assigned ≠ 0 := by
        rcases hs with q | q
        · exact q
        · rw [a] at q; cases q
      exact I.apart x y x2 y2 hne heq hx0 (x4 hp) (y4 hp') p hc hc'
    · rw [b, d]; trivial
    · rw [b, d]; trivial
  · rw [b]; trivial
  · rcases homeOf_cases s y with ⟨c, d⟩ | ⟨c, _, d⟩ | ⟨c, c', d⟩
    · rw [b, d]; trivial
    · rw [b, d]; trivial
    · rw [b, d]
      have hz : s.slots (rootOf s x) ≠ 0 := by
        rcases I.slot.has x x1 x2 a with q | q
        · rw [a'] at q; cases q
        · exact q
      have hz' : s.slots (rootOf s y) ≠ 0 := by
        rcases I.slot.has y y1 y2 c with q | q
        · rw [c'] at q; cases q
        · exact q
      have := I.slot.apart _ _ (by rw [x3, y3]; omega) hz hz'
      obtain ⟨_, _, _, _, _, w1⟩ := part_facts I.geo hk (List.mem_cons_self ..)
      obtain ⟨_, _, _, _, _, w2⟩ := part_facts I.geo hk' (List.mem_cons_self ..)
      rw [x3, y3, w1, w2] at this
      simp only [Apart]
      rw [x3, y3, x6, y6]
      exact this

example : ∃ s a b, run demo 100 = some s ∧ place demo s 0 36 false = some a ∧
    place demo s 1 36 false = some b ∧ Apart a b := by
  obtain ⟨s, hs⟩ := Option.isSome_iff_exists.1 demo_run
  obtain ⟨a, b, h⟩ := C87_homes_partial demo_ok demo_noHoist hs (k := 0) (k' := 1) (p := 36) rfl rfl
    (by decide) rfl rfl ⟨_, List.mem_cons_self .., by decide, by decide⟩
    ⟨_, List.mem_cons_self .., by decide, by decide⟩
  exact ⟨s, a, b, hs, h⟩

/-- C87 (partial), registers: a register that holds a live variable is one the allocator may use, of
the variable's kind, and not taken at that position by a call or an instruction that names it.
Missing: as for `C87_homes_partial`. -/
theorem C87_registers_partial {F : Func} (hF : F.Ok) (hno : NoHoist F) {fuel : Nat} {s : St}
    (h : run F fuel = some s) {k : Nat} {v : Var} (hk : F.vars[k]? = some v) (hp : v.preset = 0)
    {p : Int} (hl : Live v p) {r : Nat} (hr : place F s k p false = some (.reg r)) :
    1 ≤ r ∧ r < F.cfg.nregs ∧ F.cfg.cls r = v.cls ∧ ¬ Taken F r p := by
  obtain ⟨P, x, I, e, hx, hc, hs⟩ := place_out hF hno h hk hl
  obtain ⟨x1, x2, x3, x4, x5, x6⟩ := part_facts I.geo hk hx
  rw [e] at hr
  rcases homeOf_cases s x with ⟨a, b⟩ | ⟨a, _, b⟩ | ⟨a, a', b⟩
  · rw [b] at hr
    cases hr
    have hx0 : (s.heap x).assigned ≠ 0 := by
      rcases hs with q | q
      · exact q
      · rw [a] at q; cases q
    obtain ⟨c1, c2, c3⟩ := I.cls x x2 hx0 (x4 hp)
    refine ⟨c1, c2, by rw [c3, x5], ?_⟩
    intro ht
    have hh : s.heap (s.heap x).assigned = fixedIv F (s.heap x).assigned := by
      rw [I.geo.low _ (.inl c2), heap0, if_pos c2]
    refine I.apart x (s.heap x).assigned x2 (by omega) (by omega) (by rw [hh]; rfl) hx0 (x4 hp) ?_ p
      hc (by rw [hh]; exact ht)
    intro hpre
    have := pre_lt hpre
    omega
  · rw [b] at hr; cases hr
  · rw [b] at hr; cases hr

example : ∃ s r, run demo 100 = some s ∧ place demo s 0 14 false = some (.reg r) ∧ ¬ Taken demo r 14 := by
  obtain ⟨s, hs⟩ := Option.isSome_iff_exists.1 demo_run
  have e : (run demo 100).bind (fun s => place demo s 0 14 false) = some (.reg 1) := by decide +kernel
  rw [hs] at e
  have e : place demo s 0 14 false = some (.reg 1) := e
  exact ⟨s, 1, hs, e, (C87_registers_partial demo_ok demo_noHoist hs (k := 0) rfl rfl
    ⟨_, List.mem_cons_self .., by decide, by decide⟩ e).2.2.2⟩

/-- C87 (partial), stack slots: a slot has the size of the variable and lies in the part of the
frame that the walk added.  Missing: as for `C87_homes_partial`. -/
theorem C87_slots_partial {F : Func} (hF : F.Ok) (hno : NoHoist F) {fuel : Nat} {s : St}
    (h : run F fuel = some s) {k : Nat} {v : Var} (hk : F.vars[k]? = some v)
    {p : Int} (hl : Live v p) {off n : Int} (hr : place F s k p false = some (.stack off n)) :
    n = v.size ∧ -s.stackOffset ≤ off ∧ off + n ≤ -F.stackOffset := by
  obtain ⟨P, x, I, e, hx, hc, hs⟩ := place_out hF hno h hk hl
  obtain ⟨x1, x2, x3, x4, x5, x6⟩ := part_facts I.geo hk hx
  rw [e] at hr
  rcases homeOf_cases s x with ⟨a, b⟩ | ⟨a, _, b⟩ | ⟨a, a', b⟩
  · rw [b] at hr; cases hr
  · rw [b] at hr; cases hr
  · rw [b] at hr
    cases hr
    have hz : s.slots (rootOf s x) ≠ 0 := by
      rcases I.slot.has x x1 x2 a with q | q
      · rw [a'] at q; cases q
      · exact q
    obtain ⟨_, _, q1, q2⟩ := I.slot.slot _ hz
    obtain ⟨_, _, _, _, _, w1⟩ := part_facts I.geo hk (List.mem_cons_self ..)
    rw [x3] at q1 q2 ⊢
    rw [w1] at q2
    exact ⟨x6, q1, by rw [x6]; exact q2⟩

example : ∃ s off, run demo 100 = some s ∧ place demo s 0 20 false = some (.stack off 8) ∧
    -s.stackOffset ≤ off ∧ off + 8 ≤ 0 := by
  obtain ⟨s, hs⟩ := Option.isSome_iff_exists.1 demo_run
  have e : (run demo 100).bind (fun s => place demo s 0 20 false) = some (.stack (-8) 8) := by
    decide +kernel
  rw [hs] at e
  have e : place demo s 0 20 false = some (.stack (-8) 8) := e
  have := C87_slots_partial demo_ok demo_noHoist hs (k := 0) rfl
    ⟨_, List.mem_cons_self .., by decide, by decide⟩ e
  exact ⟨s, -8, hs, e, this.2⟩

/-! ### operands -/

/-- C87 (partial), operands: an operand that must be in a register is in one, an operand that must
be on the stack is not in a register.  Missing: as for `C87_homes_partial`, and operands that
define the variable again. -/
theorem C87_operands_partial {F : Func} (hF : F.Ok) (hno : NoHoist F) {fuel : Nat} {s : St}
    (h : run F fuel = some s) {k : Nat} {v : Var} (hk : F.vars[k]? = some v) (hp : v.preset = 0)
    {u : Use} (hu : u ∈ v.uses) :
    ∃ a, place F s k u.pos (!begins v u.pos) = some a ∧
      (u.kind = .must → ∃ r, a = .reg r ∧ r ≠ 0) ∧ (u.kind = .stack → ∀ r, a ≠ .reg r) := by
  obtain ⟨P, I, hun⟩ := run_inv hF hno h
  have Q := (I.geo.root k v hk).2.2.2
  have hV := hF.vars v (List.mem_of_getElem? hk)
  have hu' := hu
  rw [← Q.uses, List.mem_flatMap] at hu'
  obtain ⟨x, hx, hux⟩ := hu'
  have hz : v.ranges ≠ [] := by
    intro e
    obtain ⟨_, n, z⟩ := Q.ok x hx
    obtain ⟨_, hh, _⟩ := (Q.cov _).2 ⟨x, hx, cov_lo n z⟩
    rw [e] at hh; cases hh
  have hb : begins v u.pos = true ↔ u.pos = lo v.ranges := by
    rw [begins]
    cases hrs : v.ranges with
    | nil => exact absurd hrs hz
    | cons y ys =>
      simp only [List.head?_cons, Option.map_some, Option.some.injEq, decide_eq_true_eq, lo]
      exact eq_comm
  -- the part that is looked up is the one that carries the use
  have look : childAt s (F.cfg.nregs + k) u.pos (!begins v u.pos) = some x := by
    rcases Q.inside x hx u hux with ⟨e1, e2⟩ | q
    · rw [hb.2 e2]
      have hlo : Covers v.ranges u.pos := by rw [e2]; exact cov_lo hV.nonEmpty hz
      obtain ⟨y, f1, f2, f3⟩ := childAt_out I.geo hk hlo
      obtain ⟨_, nx, zx⟩ := Q.ok x hx
      have hxlo : lo (s.heap x).ranges = lo v.ranges := by
        -- the first part starts where the variable does
        have c1 := lo_le hV.sorted ((Q.cov _).2 ⟨x, hx, cov_lo nx zx⟩)
        have c2 := lo_le (Q.ok y f2).1 f3
        rcases List.mem_cons.1 f2 with e | e
        · rw [e1, ← e]; rw [e1, ← e] at c1; omega
        · have ho := Q.ord
          rw [List.pairwise_cons] at ho
          have c3 := ho.1 y e
          rw [← e1] at c3
          have c4 := lo_lt_hi (Q.ok x hx).1 nx zx
          omega
      have : y = x := Q.unique f2 hx f3 (by rw [e2, ← hxlo]; exact cov_lo nx zx)
      rw [← this]
      exact f1
    · have hlive := (Q.cov _).2 ⟨x, hx, q⟩
      have hnb : begins v u.pos = false := by
        cases hbb : begins v u.pos with
        | false => rfl
        | true =>
          have := hb.1 hbb
          have := lo_le hV.sorted hlive
          omega
      rw [hnb]
      obtain ⟨y, f1, f2, f3⟩ := childAt_in I.geo hk hlive
      have : y = x := Q.unique f2 hx f3 q
      rw [← this]
      exact f1
  obtain ⟨x1, x2, x3, x4, x5, x6⟩ := part_facts I.geo hk hx
  refine ⟨homeOf s x, by rw [place, look]; rfl, ?_, ?_⟩
  · intro hm
    have hns : (s.heap x).spilled = false := by
      cases hsp : (s.heap x).spilled with
      | false => rfl
      | true => exact absurd hm (I.must x x1 x2 hsp u hux)
    rcases homeOf_cases s x with ⟨a, b⟩ | ⟨a, _, b⟩ | ⟨a, _, b⟩
    · refine ⟨_, b, ?_⟩
      have := I.stat x x1 x2 (by simp)
      rw [hun, hns] at this
      simpa using this
    · rw [hns] at a; cases a
    · rw [hns] at a; cases a
  · intro hm r hr
    rcases homeOf_cases s x with ⟨a, b⟩ | ⟨a, _, b⟩ | ⟨a, _, b⟩
    · have := I.stat x x1 x2 (by simp)
      rw [hun, a] at this
      have hx0 : (s.heap x).assigned ≠ 0 := by simpa using this
      exact I.stk x x1 x2 (by simp) (x4 hp) hx0 u hux hm
    · rw [b] at hr; cases hr
    · rw [b] at hr; cases hr

example : ∃ s, run demo 100 = some s ∧ (∃ r, place demo s 1 36 true = some (.reg r)) ∧
    (∃ off, place demo s 0 18 true = some (.stack off 8)) := by
  obtain ⟨s, hs⟩ := Option.isSome_iff_exists.1 demo_run
  obtain ⟨a, ha, h1, _⟩ := C87_operands_partial demo_ok demo_noHoist hs (k := 1) rfl rfl
    (u := ⟨36, .must⟩) (by decide)
  obtain ⟨r, rfl, _⟩ := h1 rfl
  have e : (run demo 100).bind (fun s => place demo s 0 18 true) = some (.stack (-8) 8) := by
    decide +kernel
  rw [hs] at e
  exact ⟨s, hs, ⟨r, ha⟩, -8, e⟩

/-! ### moves -/

/-- C87 (partial), reading: an operand that is read finds the variable where it was just before the
operation.  Missing: as for `C87_homes_partial`. -/
theorem C87_reads_partial {F : Func} (hF : F.Ok) (hno : NoHoist F) {fuel : Nat} {s : St}
    (h : run F fuel = some s) {k : Nat} {v : Var} (hk : F.vars[k]? = some v) {p : Int}
    (hl : Live v (p - 1)) : place F s k p true = place F s k (p - 1) false := by
  obtain ⟨P, I, _⟩ := run_inv hF hno h
  have Q := (I.geo.root k v hk).2.2.2
  obtain ⟨x, e1, e2, e3⟩ := childAt_out I.geo hk hl
  obtain ⟨y, f1, f2, f3⟩ := childAt_in I.geo hk hl
  rw [place, place, e1, f1, Q.unique e2 f2 e3 f3]

/-- C87 (partial), moves: where the place of a variable changes between two neighbouring positions,
a move between two of its parts was inserted.  Its operands are looked up like those of any other
operation: it reads the old place (`C87_reads_partial`) and writes the new one.  Missing: as for
`C87_homes_partial`. -/
theorem C87_moves_partial {F : Func} (hF : F.Ok) (hno : NoHoist F) {fuel : Nat} {s : St}
    (h : run F fuel = some s) {k : Nat} {v : Var} (hk : F.vars[k]? = some v) {p : Int}
    (hl : Live v (p - 1)) (hl' : Live v p)
    (hne : place F s k (p - 1) false ≠ place F s k p false) : MoveAt F s k p := by
  obtain ⟨P, I, _⟩ := run_inv hF hno h
  have Q := (I.geo.root k v hk).2.2.2
  obtain ⟨x, e1, e2, e3⟩ := childAt_out I.geo hk hl
  obtain ⟨y, f1, f2, f3⟩ := childAt_out I.geo hk hl'
  have hxy : x ≠ y := by
    rintro rfl
    exact hne (by rw [place, place, e1, f1])
  exact Q.mov p x e2 y f2 hxy e3 f3

/-- C87 (partial), no stray moves: every inserted move is between two parts of one variable, at a
position where the variable is live.  Missing: as for `C87_homes_partial`. -/
theorem C87_no_stray_moves_partial {F : Func} (hF : F.Ok) (hno : NoHoist F) {fuel : Nat} {s : St}
    (h : run F fuel = some s) {m : Move} (hm : m ∈ s.moves) :
    ∃ k v, F.vars[k]? = some v ∧ Live v m.pos ∧
      (s.heap m.src).parent.getD m.src = F.cfg.nregs + k ∧
      (s.heap m.dst).parent.getD m.dst = F.cfg.nregs + k := by
  obtain ⟨P, I, _⟩ := run_inv hF hno h
  obtain ⟨_, _, h1, k, v, h2, h3, h4⟩ := I.geo.mvs m hm
  exact ⟨k, v, h2, h4, h3, by rw [← h3, h1]; rfl⟩

example : ∃ s, run demo 100 = some s ∧ MoveAt demo s 0 17 ∧ place demo s 0 16 false = some (.reg 1) ∧
    place demo s 0 17 true = some (.reg 1) ∧ place demo s 0 17 false = some (.stack (-8) 8) := by
  obtain ⟨s, hs⟩ := Option.isSome_iff_exists.1 demo_run
  have e : (run demo 100).map (fun s => (place demo s 0 16 false, place demo s 0 17 false)) =
    some (some (.reg 1), some (.stack (-8) 8)) := by decide +kernel
  rw [hs] at e
  simp only [Option.map_some, Option.some.injEq, Prod.mk.injEq] at e
  have l1 : Live ⟨[⟨4, 44⟩], [⟨4, .must⟩, ⟨18, .stack⟩, ⟨44, .should⟩], 8, .int, 0, none, [], false⟩ (17 - 1) :=
    ⟨_, List.mem_cons_self .., by decide, by decide⟩
  refine ⟨s, hs, ?_, e.1, ?_, e.2⟩
  · apply C87_moves_partial demo_ok demo_noHoist hs (k := 0) rfl l1
      ⟨_, List.mem_cons_self .., by decide, by decide⟩
    rw [e.2, show (17 : Int) - 1 = 16 by decide, e.1]
    decide
  · rw [C87_reads_partial demo_ok demo_noHoist hs (k := 0) rfl l1, show (17 : Int) - 1 = 16 by decide]
    exact e.1

/-! ### a loop without calls -/

/-- A loop (label 30 to 60) without calls; otherwise like `demo`. -/
def loopBlocks : List Blk := [⟨0, 28, 1, 0, -1, false⟩, ⟨30, 60, 2, 1, 0, false⟩, ⟨62, 70, 0, 0, -1, false⟩]

def looped : Func :=
  ⟨⟨loopBlocks, 3, fun _ => .int⟩, (fun r => if r = 2 then [⟨14, 15⟩] else []),
    [⟨[⟨4, 8⟩], [⟨4, .must⟩, ⟨8, .should⟩], 8, .int, 0, none, [], false⟩,
     ⟨[⟨6, 58⟩], [⟨6, .must⟩, ⟨16, .must⟩, ⟨36, .must⟩, ⟨50, .must⟩], 8, .int, 0, none, [], false⟩,
     ⟨[⟨34, 38⟩], [⟨34, .must⟩, ⟨38, .must⟩], 8, .int, 0, none, [], false⟩,
     ⟨[⟨38, 48⟩], [⟨38, .must⟩, ⟨48, .must⟩], 8, .int, 0, none, [], false⟩,
     ⟨[⟨40, 44⟩], [⟨40, .must⟩, ⟨44, .must⟩], 8, .int, 0, none, [], false⟩], 0⟩

theorem looped_ok : looped.Ok := by
  have gap : ∀ u : Int, (u ≤ 26 ∨ 31 < u) → u ≤ 58 → NoGap looped.cfg.blocks u := by
    intro u hu hu2 q b h
    rcases next_cons.1 h with ⟨rfl, rfl⟩ | h
    · simpa using hu
    · rcases next_cons.1 h with ⟨rfl, rfl⟩ | h
      · exact .inl (by simpa using hu2)
      · exact absurd h next_one
  refine ⟨⟨?_, ?_⟩, ?_, ?_, by decide⟩
  · intro q b h
    rcases next_cons.1 h with ⟨rfl, rfl⟩ | h
    · decide
    · rcases next_cons.1 h with ⟨rfl, rfl⟩ | h
      · decide
      · exact absurd h next_one
  · decide
  · intro v hv
    simp only [looped, List.mem_cons, List.not_mem_nil, or_false] at hv
    rcases hv with rfl | rfl | rfl | rfl | rfl
    all_goals
      refine ⟨by simp [Sorted], by simp [NonEmpty], by simp, ?_, by decide, ?_⟩
      · intro b hb; cases hb; simp
      · intro u hu
        simp only [List.mem_cons, List.not_mem_nil, or_false] at hu
        rcases hu with rfl | rfl | rfl | rfl
        all_goals first
          | exact .inl ⟨_, rfl, rfl⟩
          | exact .inr ⟨⟨_, List.mem_cons_self .., by decide, by decide⟩, gap _ (by decide) (by decide)⟩
  · intro r
    simp only [looped]
    by_cases h : r = 2
    · rw [if_pos h]; exact ⟨by simp [Sorted], by simp [NonEmpty]⟩
    · rw [if_neg h]; exact ⟨trivial, by simp [NonEmpty]⟩

/-- C87 fails in loops without calls: when a register is taken away from a variable, the part that
needs a register again is put back into the queue at a position moved out of the loop, before the
position of the walk.  The walk then gives it a register that another variable, already dealt
with, has there: at position 35 the variables 1 and 2 are both live and both in register 2. -/
theorem C87_loop_counterexample : ∃ F fuel s, F.Ok ∧ run F fuel = some s ∧
    ∃ k k' v v' p r, k ≠ k' ∧ F.vars[k]? = some v ∧ F.vars[k']? = some v' ∧ v.preset = 0 ∧
      v'.preset = 0 ∧ Live v p ∧ Live v' p ∧ place F s k p false = some (.reg r) ∧
      place F s k' p false = some (.reg r) := by
  have e : (run looped 100).map (fun s => (place looped s 1 35 false, place looped s 2 35 false)) =
    some (some (.reg 2), some (.reg 2)) := by decide +kernel
  cases hs : run looped 100 with
  | none => rw [hs] at e; cases e
  | some s =>
    rw [hs] at e
    simp only [Option.map_some, Option.some.injEq, Prod.mk.injEq] at e
    exact ⟨looped, 100, s, looped_ok, hs, 1, 2, _, _, 35, 2, by decide, rfl, rfl, rfl, rfl,
      ⟨_, List.mem_cons_self .., by decide, by decide⟩,
      ⟨_, List.mem_cons_self .., by decide, by decide⟩, e.1, e.2⟩

end Nature.Alloc
