import Verif.ParMove.Lemmas
/-!
C36: simultaneous moves are sequentialised correctly.

The target's two scratch registers are reserved (no instruction of the group reads or
writes them).  `Group` collects the conditions on a group.
-/
namespace Nature.ParMove

/-- Operands that mention at most one register or stack slot: a register, a slot, a load
through one register, a constant. -/
def Opd.Simple (o : Opd) : Prop := o.locs.length ≤ 1

/-- A group of simultaneous instructions with distinct destinations in which no scratch
register is used, and in which no slot of float class that is read is also written. -/
structure Group (A : Arch) (l : List Op) : Prop where
  distinct : (l.map Op.out).Nodup
  noScratch : ∀ op ∈ l, ¬ Scratch A op.out ∧ ∀ x ∈ op.reads, ¬ Scratch A x
  floatSlots : ∀ op ∈ l, ∀ op' ∈ l, ∀ s, (op.first = .stack s true ∨ op.second = some (.stack s true)) → op'.out = .stack s → op' = op
  moveUnary : ∀ op ∈ l, op.code = .move → op.second = none

/-- **C36 (partial), moves.** Any group of simultaneous moves, each from a register, a stack
slot, a constant or a load through one register, in any order, with chains, fan-outs and
cycles, is turned into ordinary instructions that give every destination the value its
source had before and change nothing else but the two scratch registers, on every machine
and from every state.  Missing: a cycle through a float stack slot, loads through two
registers and two-operand instructions (counterexamples below). -/
theorem C36_moves_partial (A : Arch) (l : List Op) (h : Group A l) (hm : ∀ op ∈ l, op.code = .move ∧ op.first.Simple) :
    ∃ out, parallelMoves A l = some out ∧
      ∀ (V : Type) (M : Machine V) (σ : State V), Simultaneous M (Scratch A) l σ (M.run σ out) := by
  have hget : ∀ i, i < l.length → l.getD i ⟨.move, .imm 0, none, .stack 0⟩ ∈ l := by
    intro i hi
    rw [List.getD_eq_getElem?_getD, List.getElem?_eq_getElem hi]; exact List.getElem_mem hi
  have hinj : ∀ i j, i < l.length → j < l.length →
      (l.getD i ⟨.move, .imm 0, none, .stack 0⟩).out = (l.getD j ⟨.move, .imm 0, none, .stack 0⟩).out → i = j := by
    intro i j hi hj e
    rw [List.getD_eq_getElem?_getD, List.getElem?_eq_getElem hi, List.getD_eq_getElem?_getD, List.getElem?_eq_getElem hj] at e
    refine (List.getElem?_inj (l := l.map Op.out) (by simpa using hi) h.distinct).1 ?_
    simp only [List.getElem?_map, List.getElem?_eq_getElem hi, List.getElem?_eq_getElem hj, Option.map_some]
    simpa using e
  refine parallel_ok l ⟨hinj, ?_, ?_, ?_, ?_, ?_, ?_⟩
  · intro j i i' hj hi hi' _ _ h1 h2
    apply hinj i i' hi hi'
    obtain ⟨hc, hs⟩ := hm _ (hget j hj)
    have hsec := h.moveUnary _ (hget j hj) hc
    rw [mem_reads, hsec] at h1 h2
    simp only [reduceCtorEq, false_and, exists_false, or_false] at h1 h2
    revert h1 h2 hs
    unfold Opd.Simple
    generalize (l.getD j ⟨.move, .imm 0, none, .stack 0⟩).first.locs = x
    intro hs h1 h2
    match x, hs, h1, h2 with
    | [], _, h1, _ => cases h1
    | [a], _, h1, h2 => rw [List.mem_singleton.1 h1, List.mem_singleton.1 h2]
    | _ :: _ :: _, hs, _, _ => simp at hs
  · intro j i hj hi _ _ o ho
    rw [h.moveUnary _ (hget j hj) (hm _ (hget j hj)).1] at ho
    cases ho
  · intro i hi; exact (h.noScratch _ (hget i hi)).1
  · intro i hi x hx; exact (h.noScratch _ (hget i hi)).2 x hx
  · intro j i s hj hi hij ho e
    exact hij (hinj i j hi hj (congrArg Op.out (h.floatSlots _ (hget j hj) _ (hget i hi) s ho e)))
  · intro i hi hc; exact h.moveUnary _ (hget i hi) hc

/-- **C36 (partial), any instructions.** The same for groups that also contain one- and
two-operand instructions and loads through two registers, when each instruction reads the
destination of at most one other instruction (and its two operands are the same if both
mention it). -/
theorem C36_ops_partial (A : Arch) (l : List Op) (h : Group A l)
    (hone : ∀ op ∈ l, ∀ a ∈ l, ∀ b ∈ l, a.out ≠ op.out → b.out ≠ op.out → a.out ∈ op.reads → b.out ∈ op.reads → a.out = b.out)
    (hboth : ∀ op ∈ l, ∀ a ∈ l, a.out ≠ op.out → a.out ∈ op.first.locs → ∀ o, op.second = some o → a.out ∈ o.locs → o = op.first) :
    ∃ out, parallelMoves A l = some out ∧
      ∀ (V : Type) (M : Machine V) (σ : State V), Simultaneous M (Scratch A) l σ (M.run σ out) := by
  have hget : ∀ i, i < l.length → l.getD i ⟨.move, .imm 0, none, .stack 0⟩ ∈ l := by
    intro i hi
    rw [List.getD_eq_getElem?_getD, List.getElem?_eq_getElem hi]; exact List.getElem_mem hi
  have hinj : ∀ i j, i < l.length → j < l.length →
      (l.getD i ⟨.move, .imm 0, none, .stack 0⟩).out = (l.getD j ⟨.move, .imm 0, none, .stack 0⟩).out → i = j := by
    intro i j hi hj e
    rw [List.getD_eq_getElem?_getD, List.getElem?_eq_getElem hi, List.getD_eq_getElem?_getD, List.getElem?_eq_getElem hj] at e
    refine (List.getElem?_inj (l := l.map Op.out) (by simpa using hi) h.distinct).1 ?_
    simp only [List.getElem?_map, List.getElem?_eq_getElem hi, List.getElem?_eq_getElem hj, Option.map_some]
    simpa using e
  have hne : ∀ i j, i < l.length → j < l.length → i ≠ j →
      (l.getD i ⟨.move, .imm 0, none, .stack 0⟩).out ≠ (l.getD j ⟨.move, .imm 0, none, .stack 0⟩).out :=
    fun i j hi hj hij e => hij (hinj i j hi hj e)
  refine parallel_ok l ⟨hinj, ?_, ?_, ?_, ?_, ?_, ?_⟩
  · intro j i i' hj hi hi' hij hij' h1 h2
    exact hinj i i' hi hi' (hone _ (hget j hj) _ (hget i hi) _ (hget i' hi') (hne i j hi hj hij) (hne i' j hi' hj hij') h1 h2)
  · intro j i hj hi hij h1 o ho h2
    exact hboth _ (hget j hj) _ (hget i hi) (hne i j hi hj hij) h1 o ho h2
  · intro i hi; exact (h.noScratch _ (hget i hi)).1
  · intro i hi x hx; exact (h.noScratch _ (hget i hi)).2 x hx
  · intro j i s hj hi hij ho e
    exact hij (hinj i j hi hj (congrArg Op.out (h.floatSlots _ (hget j hj) _ (hget i hi) s ho e)))
  · intro i hi hc; exact h.moveUnary _ (hget i hi) hc

/-! ### Concrete groups (amd64 numbering: scratch registers rbx = 3 and xmm15) -/

def amd64 : Arch := ⟨3, 15⟩
def r (n : Nat) : Reg := ⟨false, n⟩
def x (n : Nat) : Reg := ⟨true, n⟩

/-- A three-cycle with a fan-out, a load and a chain; five instructions plus one save. -/
def demo : List Op :=
  [⟨.move, .reg (r 0), none, .reg (r 1)⟩, ⟨.move, .reg (r 1), none, .reg (r 2)⟩, ⟨.move, .reg (r 2), none, .reg (r 0)⟩,
   ⟨.move, .reg (r 0), none, .stack 8⟩, ⟨.move, .addr (some (r 2)) none 16 0 false, none, .reg (r 6)⟩, ⟨.move, .stack 16 true, none, .reg (x 0)⟩]

instance (A : Arch) (l : Loc) : Decidable (Scratch A l) := by unfold Scratch; infer_instance

example : Group amd64 demo ∧ ∀ op ∈ demo, op.code = .move ∧ op.first.Simple := by
  refine ⟨⟨by decide, by decide, ?_, by decide⟩, by unfold Opd.Simple; decide⟩
  intro op ho op' ho' s h e
  simp only [demo, List.mem_cons, List.not_mem_nil, or_false] at ho ho'
  rcases ho with rfl | rfl | rfl | rfl | rfl | rfl <;> rcases ho' with rfl | rfl | rfl | rfl | rfl | rfl <;> simp_all <;> omega

example : parallelMoves amd64 demo = some
  [⟨.move, .reg (r 0), none, .reg (r 3)⟩, ⟨.move, .reg (r 0), none, .stack 8⟩, ⟨.move, .reg (r 2), none, .reg (r 0)⟩,
   ⟨.move, .addr (some (r 2)) none 16 0 false, none, .reg (r 6)⟩, ⟨.move, .reg (r 1), none, .reg (r 2)⟩,
   ⟨.move, .reg (r 3), none, .reg (r 1)⟩, ⟨.move, .stack 16 true, none, .reg (x 0)⟩] := by decide

/-- The two-operand instructions of `C36_ops_partial`: `r0 := r0 - r1`, `r1 := r1 - r0`. -/
example : parallelMoves amd64 [⟨.alu 1, .reg (r 0), some (.reg (r 1)), .reg (r 0)⟩, ⟨.alu 1, .reg (r 1), some (.reg (r 0)), .reg (r 1)⟩] = some
  [⟨.move, .reg (r 1), none, .reg (r 3)⟩, ⟨.alu 1, .reg (r 1), some (.reg (r 0)), .reg (r 1)⟩,
   ⟨.alu 1, .reg (r 0), some (.reg (r 3)), .reg (r 0)⟩] := by decide

example : let l : List Op := [⟨.alu 1, .reg (r 0), some (.reg (r 1)), .reg (r 0)⟩, ⟨.alu 1, .reg (r 1), some (.reg (r 0)), .reg (r 1)⟩]
    Group amd64 l ∧
    (∀ op ∈ l, ∀ a ∈ l, ∀ b ∈ l, a.out ≠ op.out → b.out ≠ op.out → a.out ∈ op.reads → b.out ∈ op.reads → a.out = b.out) ∧
    (∀ op ∈ l, ∀ a ∈ l, a.out ≠ op.out → a.out ∈ op.first.locs → ∀ o, op.second = some o → a.out ∈ o.locs → o = op.first) := by
  refine ⟨⟨by decide, by decide, ?_, by decide⟩, by decide, ?_⟩
  · intro op ho op' ho' s h e
    simp only [List.mem_cons, List.not_mem_nil, or_false] at ho
    rcases ho with rfl | rfl <;> simp_all
  · intro op ho a ha hne h1
    simp only [List.mem_cons, List.not_mem_nil, or_false] at ho ha
    rcases ho with rfl | rfl <;> rcases ha with rfl | rfl <;> simp_all [Opd.locs]

/-- A machine on integers whose two-operand instructions subtract and whose loads add. -/
def toy : Machine Int where
  load b i off _ := b.getD 0 + i.getD 0 + off
  alu _ a b := a - b.getD 0
  imm v := v

/-- **C36 counterexample, two-operand instructions.**  For the arguments of `f(b - c, a, a)`
with `a`, `b`, `c` in r0, r1, r2 the group is `r0 := r1 - r2, r1 := r0, r2 := r0`; both
operands of the first are saved in the same scratch register and `f` gets 0. -/
theorem C36_two_operand_counterexample :
    ∃ l out, Group amd64 l ∧ parallelMoves amd64 l = some out ∧
      ∃ σ : State Int, ¬ Simultaneous toy (Scratch amd64) l σ (toy.run σ out) ∧
        toy.value σ ⟨.alu 1, .reg (r 1), some (.reg (r 2)), .reg (r 0)⟩ = 30 ∧ toy.run σ out (.reg (r 0)) = 0 := by
  refine ⟨[⟨.alu 1, .reg (r 1), some (.reg (r 2)), .reg (r 0)⟩, ⟨.move, .reg (r 0), none, .reg (r 1)⟩, ⟨.move, .reg (r 0), none, .reg (r 2)⟩],
    _, ⟨by decide, by decide, ?_, by decide⟩, by rfl, fun l => if l = .reg (r 1) then 40 else if l = .reg (r 2) then 10 else 7, ?_, by decide, by decide⟩
  · intro op ho op' ho' s h e
    simp only [List.mem_cons, List.not_mem_nil, or_false] at ho
    rcases ho with rfl | rfl | rfl <;> simp_all
  · intro h
    have := h.1 ⟨.alu 1, .reg (r 1), some (.reg (r 2)), .reg (r 0)⟩ (by simp)
    revert this
    decide

/-- **C36 counterexample, loads through two registers**: `r2 := [r0+r1], r0 := [r2+r6], r6 := r0`. -/
theorem C36_two_register_load_counterexample :
    ∃ l out, Group amd64 l ∧ (∀ op ∈ l, op.code = .move) ∧ parallelMoves amd64 l = some out ∧
      ∃ σ : State Int, ¬ Simultaneous toy (Scratch amd64) l σ (toy.run σ out) := by
  refine ⟨[⟨.move, .addr (some (r 0)) (some (r 1)) 0 0 false, none, .reg (r 2)⟩, ⟨.move, .addr (some (r 2)) (some (r 6)) 0 0 false, none, .reg (r 0)⟩,
      ⟨.move, .reg (r 0), none, .reg (r 6)⟩],
    _, ⟨by decide, by decide, ?_, by decide⟩, by decide, by rfl, fun l => if l = .reg (r 1) then 40 else if l = .reg (r 2) then 10 else 7, ?_⟩
  · intro op ho op' ho' s h e
    simp only [List.mem_cons, List.not_mem_nil, or_false] at ho
    rcases ho with rfl | rfl | rfl <;> simp_all
  · intro h
    have := h.1 ⟨.move, .addr (some (r 0)) (some (r 1)) 0 0 false, none, .reg (r 2)⟩ (by simp)
    revert this
    decide

/-- **C36 counterexample, float stack slots**: `xmm0 := [slot], [slot] := xmm0, xmm1 := xmm3`.
The scratch register for a float slot is the float register with the index of rbx, xmm3,
which is not reserved: xmm1 does not get the old xmm3. -/
theorem C36_float_slot_counterexample :
    ∃ l out, (l.map Op.out).Nodup ∧ (∀ op ∈ l, ¬ Scratch amd64 op.out ∧ ∀ x ∈ op.reads, ¬ Scratch amd64 x) ∧
      (∀ op ∈ l, op.code = .move ∧ op.second = none ∧ op.first.Simple) ∧ parallelMoves amd64 l = some out ∧
      ∃ σ : State Int, ¬ Simultaneous toy (Scratch amd64) l σ (toy.run σ out) := by
  refine ⟨[⟨.move, .stack 8 true, none, .reg (x 0)⟩, ⟨.move, .reg (x 0), none, .stack 8⟩, ⟨.move, .reg (x 3), none, .reg (x 1)⟩],
    _, by decide, by decide, by unfold Opd.Simple; decide, by rfl, fun l => if l = .reg (x 3) then 40 else if l = .stack 8 then 10 else 7, ?_⟩
  intro h
  have := h.1 ⟨.move, .reg (x 3), none, .reg (x 1)⟩ (by simp)
  revert this
  decide

/-! ### Whole blocks -/

/-- The meaning of a block: marked instructions that follow each other with the same id act
at the same time, the others one by one.  `Block M S σ l σ'`: from `σ` the block can end in
`σ'` (scratch registers arbitrary after each group). -/
inductive Block {V : Type} (M : Machine V) (S : Loc → Prop) : State V → List BOp → State V → Prop
  | nil (σ : State V) : Block M S σ [] σ
  | one (σ σ' : State V) (b : BOp) (l : List BOp) : b.par = false → Block M S (M.exec σ b.op) l σ' → Block M S σ (b :: l) σ'
  | grp (σ σ1 σ' : State V) (g l : List BOp) : g ≠ [] → (∀ b ∈ g, b.par = true) → (∃ id, (∀ b ∈ g, b.id = id) ∧ ∀ b, l.head? = some b → ¬ (b.par = true ∧ b.id = id)) →
      Simultaneous M S (g.map BOp.op) σ σ1 → Block M S σ1 l σ' → Block M S σ (g ++ l) σ'

theorem collect_spec (id : Int) (l : List BOp) : ∃ g, l = g ++ (collect id l).2 ∧ g.map BOp.op = (collect id l).1 ∧
    (∀ b ∈ g, b.par = true ∧ b.id = id) ∧ ∀ b, (collect id l).2.head? = some b → ¬ (b.par = true ∧ b.id = id) := by
  induction l with
  | nil => exact ⟨[], by simp [collect]⟩
  | cons b l ih =>
    by_cases h : (b.par && b.id == id) = true
    · obtain ⟨g, e1, e2, e3, e4⟩ := ih
      have hc : collect id (b :: l) = (b.op :: (collect id l).1, (collect id l).2) := by rw [collect, if_pos h]
      rw [hc]
      refine ⟨b :: g, by simp only [List.cons_append]; rw [← e1], by simp [e2], ?_, e4⟩
      intro c hc
      rcases List.mem_cons.1 hc with e | e
      · subst e; simpa using h
      · exact e3 c e
    · have hc : collect id (b :: l) = ([], b :: l) := by rw [collect, if_neg h]
      rw [hc]
      refine ⟨[], rfl, rfl, by simp, ?_⟩
      intro c hc
      simp only [List.head?_cons, Option.some.injEq] at hc
      subst hc
      simpa using h

/-- **C36 (partial), blocks.** In a whole block, the marked groups are sequentialised
correctly and everything else is kept in order, if each marked instruction is a move from
simple operands and each group meets the conditions above. -/
theorem C36_block_partial (A : Arch) (l : List BOp)
    (hm : ∀ b ∈ l, b.par = true → b.op.code = .move ∧ b.op.first.Simple)
    (hg : ∀ p g q, l = p ++ g ++ q → (∀ b ∈ g, b.par = true) → (∃ id, ∀ b ∈ g, b.id = id) → Group A (g.map BOp.op)) :
    ∃ out, handle A l = some out ∧ ∀ (V : Type) (M : Machine V) (σ : State V), Block M (Scratch A) σ l (M.run σ out) := by
  generalize hn : l.length = n
  induction n using Nat.strongRecOn generalizing l with
  | _ n ih =>
    cases l with
    | nil => exact ⟨[], by rw [handle], fun V M σ => .nil σ⟩
    | cons b l =>
      rw [handle]
      by_cases hp : b.par = true
      · rw [if_pos hp]
        obtain ⟨g, e1, e2, e3, e4⟩ := collect_spec b.id l
        generalize hrest : (collect b.id l).2 = rest at e1 e4
        have hG : Group A (b.op :: (collect b.id l).1) := by
          have := hg [] (b :: g) rest (by simp only [List.nil_append, List.cons_append]; rw [← e1]) (fun c hc => by
            rcases List.mem_cons.1 hc with e | e
            · exact e ▸ hp
            · exact (e3 c e).1) ⟨b.id, fun c hc => by
            rcases List.mem_cons.1 hc with e | e
            · rw [e]
            · exact (e3 c e).2⟩
          rw [List.map_cons, e2] at this
          exact this
        have hS : ∀ op ∈ b.op :: (collect b.id l).1, op.code = .move ∧ op.first.Simple := by
          intro op ho
          rcases List.mem_cons.1 ho with e | e
          · rw [e]; exact hm b (List.mem_cons_self ..) hp
          · rw [← e2] at e
            obtain ⟨c, hc, he⟩ := List.mem_map.1 e
            rw [← he]
            exact hm c (List.mem_cons_of_mem _ (by rw [e1]; exact List.mem_append_left _ hc)) (e3 c hc).1
        obtain ⟨o1, h1, h2⟩ : ∃ out, group A (b.op :: (collect b.id l).1) = some out ∧
            ∀ (V : Type) (M : Machine V) (σ : State V), Simultaneous M (Scratch A) (b.op :: (collect b.id l).1) σ (M.run σ out) := by
          cases hcl : (collect b.id l).1 with
          | nil =>
            refine ⟨[b.op], rfl, fun V M σ => ⟨fun op ho => ?_, fun y hy _ => ?_⟩⟩
            · rw [List.mem_singleton.1 ho]; exact exec_same M σ b.op
            · exact exec_ne M σ b.op (fun e => hy b.op (List.mem_singleton.2 rfl) e.symm)
          | cons c t =>
            rw [hcl] at hG hS
            exact C36_moves_partial A _ hG hS
        have hlen : rest.length < n := by
          have := congrArg List.length e1
          simp only [List.length_append] at this
          simp only [List.length_cons] at hn
          omega
        obtain ⟨o2, h3, h4⟩ := ih rest.length hlen rest (fun c hc => hm c (List.mem_cons_of_mem _ (by rw [e1]; exact List.mem_append_right _ hc)))
          (fun p g' q e => hg (b :: g ++ p) g' q (by rw [e1, e]; simp)) rfl
        refine ⟨o1 ++ o2, by rw [h1]; simp only [Option.bind_some]; rw [h3]; rfl, fun V M σ => ?_⟩
        have hrun : M.run σ (o1 ++ o2) = M.run (M.run σ o1) o2 := List.foldl_append ..
        rw [hrun, e1, ← List.cons_append]
        refine .grp σ (M.run σ o1) _ (b :: g) rest (by simp) ?_ ⟨b.id, ?_, e4⟩ ?_ (h4 V M _)
        · intro c hc
          rcases List.mem_cons.1 hc with e | e
          · exact e ▸ hp
          · exact (e3 c e).1
        · intro c hc
          rcases List.mem_cons.1 hc with e | e
          · rw [e]
          · exact (e3 c e).2
        · rw [List.map_cons, e2]; exact h2 V M σ
      · rw [if_neg hp]
        obtain ⟨o2, h3, h4⟩ := ih l.length (by simp only [List.length_cons] at hn; omega) l (fun c hc => hm c (List.mem_cons_of_mem _ hc))
          (fun p g' q e => hg (b :: p) g' q (by rw [e]; simp)) rfl
        refine ⟨[b.op] ++ o2, by rw [h3]; rfl, fun V M σ => ?_⟩
        exact .one σ _ b l (by simpa using hp) (h4 V M (M.exec σ b.op))

theorem Group.sublist {A : Arch} {l l' : List Op} (h : Group A l) (hs : l'.Sublist l) : Group A l' :=
  ⟨h.distinct.sublist (hs.map Op.out), fun op ho => h.noScratch op (hs.subset ho),
    fun op ho op' ho' => h.floatSlots op (hs.subset ho) op' (hs.subset ho'), fun op ho => h.moveUnary op (hs.subset ho)⟩

/-- A block with two groups and an ordinary instruction between them. -/
def demoBlock : List BOp :=
  [⟨⟨.move, .reg (r 0), none, .reg (r 1)⟩, true, 4⟩, ⟨⟨.move, .reg (r 1), none, .reg (r 0)⟩, true, 4⟩,
   ⟨⟨.alu 2, .reg (r 1), none, .reg (r 6)⟩, false, 6⟩, ⟨⟨.move, .reg (r 6), none, .reg (r 7)⟩, true, 8⟩]

example : (∀ b ∈ demoBlock, b.par = true → b.op.code = .move ∧ b.op.first.Simple) ∧
    ∀ p g q, demoBlock = p ++ g ++ q → (∀ b ∈ g, b.par = true) → (∃ id, ∀ b ∈ g, b.id = id) → Group amd64 (g.map BOp.op) := by
  constructor
  · unfold Opd.Simple; decide
  · intro p g q e _ _
    have hall : Group amd64 (demoBlock.map BOp.op) := by
      refine ⟨by decide, by decide, ?_, by decide⟩
      intro op ho op' ho' s h e
      simp only [demoBlock, List.map_cons, List.map_nil, List.mem_cons, List.not_mem_nil, or_false] at ho
      rcases ho with rfl | rfl | rfl | rfl <;> simp_all
    refine hall.sublist (List.Sublist.map _ ?_)
    rw [e]
    exact (List.sublist_append_right p g).trans (List.sublist_append_left _ q)

example : handle amd64 demoBlock = some
  [⟨.move, .reg (r 0), none, .reg (r 3)⟩, ⟨.move, .reg (r 1), none, .reg (r 0)⟩, ⟨.move, .reg (r 3), none, .reg (r 1)⟩,
   ⟨.alu 2, .reg (r 1), none, .reg (r 6)⟩, ⟨.move, .reg (r 6), none, .reg (r 7)⟩] := by
  simp [demoBlock, handle, collect, group]; decide

end Nature.ParMove
