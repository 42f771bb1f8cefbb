import Verif.Sched.Build
/-
C84: the compiler's reordering of instructions.
-/
namespace Nature.Sched

theorem blockFrom_perm (id : Reg → Nat) : ∀ (ops seg : List Op), (∀ op ∈ seg, ¬ op.barrier) →
    ∃ r, blockFrom id seg ops = some r ∧ r.Perm (seg ++ ops) ∧
      ∀ (k : Nat) (op : Op), (seg ++ ops)[k]? = some op → op.barrier →
        r[k]? = some op ∧ (r.take k).Perm ((seg ++ ops).take k) := by
  intro ops
  induction ops with
  | nil =>
    intro seg hs
    obtain ⟨r, h1, h2⟩ := segment_perm id seg
    refine ⟨r, h1, by rw [List.append_nil]; exact h2, ?_⟩
    intro k op h hf
    rw [List.append_nil] at h
    exact (hs op (List.mem_of_getElem? h) hf).elim
  | cons o ops ih =>
    intro seg hs
    rw [blockFrom]
    by_cases ho : o.barrier
    · rw [if_pos ((fixed_iff o).mpr ho)]
      obtain ⟨s, h1, h2⟩ := segment_perm id seg
      obtain ⟨r, h3, h4, h5⟩ := ih [] (fun _ h => (List.not_mem_nil h).elim)
      rw [List.nil_append] at h4 h5
      rw [h1, h3]
      refine ⟨s ++ o :: r, rfl, List.Perm.append h2 (List.Perm.cons o h4), ?_⟩
      intro k op hk hf
      have hl := h2.length_eq
      by_cases hk' : k < seg.length
      · rw [List.getElem?_append_left hk'] at hk
        exact (hs op (List.mem_of_getElem? hk) hf).elim
      · rw [List.getElem?_append_right (by omega)] at hk
        rw [List.getElem?_append_right (by omega), List.take_append, List.take_append, List.take_of_length_le (by omega),
          List.take_of_length_le (show seg.length ≤ k by omega), hl]
        cases hd : k - seg.length with
        | zero =>
          rw [hd] at hk
          exact ⟨hk, by simpa using h2⟩
        | succ d =>
          rw [hd] at hk
          obtain ⟨h6, h7⟩ := h5 d op (by simpa using hk) hf
          exact ⟨by simpa using h6, by
            rw [List.take_succ_cons, List.take_succ_cons]
            exact List.Perm.append h2 (List.Perm.cons o h7)⟩
    · rw [if_neg (by rw [fixed_iff]; exact ho)]
      have := ih (seg ++ [o]) (by
        intro x hx
        rcases List.mem_append.mp hx with h | h
        · exact hs x h
        · rw [List.mem_singleton] at h; subst h; simpa using ho)
      simpa using this

theorem blockFrom_run {V : Type} (m : Meaning V) (id : Reg → Nat) : ∀ (ops seg : List Op), (∀ op ∈ seg, ¬ op.barrier) →
    (∀ x ∈ segments seg ops, VarsOk x ∧ RegsOk id x ∧ MemOk x) →
    ∀ r, blockFrom id seg ops = some r → ∀ s : State V, run m r s = run m (seg ++ ops) s := by
  intro ops
  induction ops with
  | nil =>
    intro seg hs hok r h s
    have := hok seg (by simp [segments])
    rw [List.append_nil]
    exact segment_run m id seg hs this.1 this.2.1 this.2.2 h s
  | cons o ops ih =>
    intro seg hs hok r h s
    rw [blockFrom] at h
    rw [segments] at hok
    by_cases ho : o.barrier
    · rw [if_pos ((fixed_iff o).mpr ho)] at h
      rw [if_pos ho] at hok
      obtain ⟨r1, h1, _⟩ := segment_perm id seg
      obtain ⟨r2, h2, _⟩ := blockFrom_perm id ops [] (fun _ h => (List.not_mem_nil h).elim)
      rw [h1, h2] at h
      have e : r1 ++ o :: r2 = r := by simpa using h
      subst e
      have hok1 := hok seg List.mem_cons_self
      rw [run_append, run_append, segment_run m id seg hs hok1.1 hok1.2.1 hok1.2.2 h1 s]
      exact ih [] (fun _ h => (List.not_mem_nil h).elim) (fun x hx => hok x (List.mem_cons_of_mem _ hx)) r2 h2 _
    · rw [if_neg (by rw [fixed_iff]; exact ho)] at h
      rw [if_neg ho] at hok
      have := ih (seg ++ [o]) (by
        intro x hx
        rcases List.mem_append.mp hx with h | h
        · exact hs x h
        · rw [List.mem_singleton] at h; subst h; simpa using ho) hok r h s
      simpa using this

/-- C84, for every block and whatever numbers the registers have: scheduling comes to an end, nothing is lost, doubled or added,
calls, jumps, labels, safepoints and returns stay where they are, and no instruction crosses one of them. -/
theorem C84_permutation (id : Reg → Nat) (ops : List Op) :
    ∃ r, block id ops = some r ∧ r.Perm ops ∧
      ∀ (k : Nat) (op : Op), ops[k]? = some op → op.barrier → r[k]? = some op ∧ (r.take k).Perm (ops.take k) := by
  unfold block
  by_cases h : ops.length ≤ 1
  · rw [if_pos h]
    exact ⟨ops, rfl, List.Perm.refl _, fun k op hk _ => ⟨hk, List.Perm.refl _⟩⟩
  · rw [if_neg h]
    exact blockFrom_perm id ops [] (fun _ h => (List.not_mem_nil h).elim)

/-- C84 in part: whatever the instructions compute from the places they read, and whatever calls and jumps do, the scheduled block
ends in the same state as the block, if its segments meet `VarsOk`, `RegsOk` and `MemOk`.

Missing: the segments that do not (`C84_global_counterexample`, `C84_byte_rem_counterexample`: there scheduling is wrong); the
moment of a trap among the other effects. -/
theorem C84_partial {V : Type} (m : Meaning V) (id : Reg → Nat) (ops r : List Op) (h : block id ops = some r)
    (hok : ∀ seg ∈ segments [] ops, VarsOk seg ∧ RegsOk id seg ∧ MemOk seg) (s : State V) : run m r s = run m ops s := by
  unfold block at h
  by_cases hl : ops.length ≤ 1
  · rw [if_pos hl] at h; cases h; rfl
  · rw [if_neg hl] at h
    exact blockFrom_run m id ops [] (fun _ h => (List.not_mem_nil h).elim) hok r h s

/-! ### Concrete blocks -/

/-- mov -/
def mv (out : Operand) (a : Operand) : Op := { code := .rest 0, first := some a, output := some out }
/-- A two address addition. -/
def addTo (v : Nat) (a : Operand) : Op := { code := .add, first := some (.var v), second := some a, output := some (.var v) }
/-- clr -/
def clr (r : Reg) : Op := { code := .rest 1, output := some (.reg r) }

def rax : Reg := ⟨false, 0, false⟩
def rdx : Reg := ⟨false, 2, false⟩
def rcx : Reg := ⟨false, 1, false⟩
/-- ah has the number 4 (src/register/arch/amd64.c:239). -/
def ah : Reg := ⟨false, 4, true⟩

def opVal (o : Option Operand) (s : State Int) : Int :=
  match o with
  | some (.var v) => s (.var v)
  | some (.reg r) => if r.high then s r.unit / 256 else s r.unit
  | some (.regs (r :: _)) => s r.unit
  | some (.imm n) => n
  | some (.sym _) => s .mem
  | _ => 0

/-- What the instructions of the examples do: mov, add, clr, and the division of a byte, which leaves the quotient in al and
the remainder in ah. -/
def opRes (op : Op) (s : State Int) : Int :=
  match op.code with
  | .rest 0 => opVal op.first s
  | .add => opVal op.first s + opVal op.second s
  | .div => opVal op.first s / opVal op.second s + 256 * (opVal op.first s % opVal op.second s)
  | _ => 0

theorem opVal_congr (o : Option Operand) (s s' : State Int) (h : ∀ x, x ∈ o.toList.flatMap Operand.places → s x = s' x) :
    opVal o s = opVal o s' := by
  unfold opVal
  split
  · exact h _ (by simp [Operand.places])
  · rw [h _ (by simp [Operand.places])]
  · exact h _ (by simp [Operand.places])
  · rfl
  · exact h _ (by simp [Operand.places])
  · rfl

def arith : Meaning Int where
  exec op s l := if l ∈ op.writes then opRes op s else s l
  frame op s l _ h := if_neg h
  depends op s s' l _ hl hx := by
    rw [if_pos hl, if_pos hl]
    have h1 : ∀ o, o = op.first ∨ o = op.second → op.code ≠ .lea → opVal o s = opVal o s' := by
      intro o ho hc
      refine opVal_congr o s s' fun x hx' => hx x (Or.inl ?_)
      refine List.mem_append_left _ (List.mem_filter.mpr ⟨?_, decide_eq_true (fun h => (hc h).elim)⟩)
      rw [Op.inputs, List.flatMap_append, List.flatMap_append]
      rcases ho with rfl | rfl
      · exact List.mem_append_left _ (List.mem_append_left _ hx')
      · exact List.mem_append_left _ (List.mem_append_right _ hx')
    unfold opRes
    split
    · rename_i hc; exact h1 _ (Or.inl rfl) (by rw [hc]; simp)
    · rename_i hc; rw [h1 _ (Or.inl rfl) (by rw [hc]; simp), h1 _ (Or.inr rfl) (by rw [hc]; simp)]
    · rename_i hc; rw [h1 _ (Or.inl rfl) (by rw [hc]; simp), h1 _ (Or.inr rfl) (by rw [hc]; simp)]
    · rfl

/-- `g = g + 1; g = g + 1` on a global variable, as lowered for amd64 (src/lower/amd64.c:170-218). -/
def incTwice : List Op :=
  [mv (.var 0) (.sym 0), addTo 0 (.imm 1), mv (.sym 0) (.var 0), mv (.var 1) (.sym 0), addTo 1 (.imm 1), mv (.sym 0) (.var 1)]

/-- On amd64 one of two increments of a global variable is lost: global variables do not count as memory, so the
second read is moved before the first write. -/
theorem C84_global_counterexample :
    ∃ r, block idAmd64 incTwice = some r ∧ run arith incTwice (fun _ => 0) .mem = 2 ∧ run arith r (fun _ => 0) .mem = 1 := by
  exact ⟨_, rfl, by decide +kernel, by decide +kernel⟩

/-- `x = a % b; y = c % b` on bytes, as lowered for amd64 (src/lower/amd64.c:245-272): variables 0 to 2 are a, b, c, 3 and 4 are x
and y. -/
def remTwice : List Op :=
  [clr rax, mv (.reg rax) (.var 0), { code := .div, first := some (.regs [rax, ah]), second := some (.var 1), output := some (.reg ah) },
   mv (.var 3) (.reg ah), clr rax, mv (.reg rax) (.var 2),
   { code := .div, first := some (.regs [rax, ah]), second := some (.var 1), output := some (.reg ah) }, mv (.var 4) (.reg ah)]

/-- On amd64 the first of two remainders of bytes is lost: ah has the number 4, which is taken for rsp, so nothing keeps the
instruction that reads ah before the one that clears ax. -/
theorem C84_byte_rem_counterexample :
    ∃ r s, block idAmd64 remTwice = some r ∧ s (.var 0) = 17 ∧ s (.var 1) = 10 ∧ s (.var 2) = 25 ∧
      run arith remTwice s (.var 3) = 7 ∧ run arith remTwice s (.var 4) = 5 ∧ run arith r s (.var 3) ≠ 7 := by
  exact ⟨_, fun l => if l = .var 0 then 17 else if l = .var 1 then 10 else if l = .var 2 then 25 else 0, rfl, rfl, rfl, rfl,
    by decide +kernel, by decide +kernel, by decide +kernel⟩

/-- A register is read twice, then given a new value. -/
def readTwice : List Op :=
  [mv (.var 1) (.reg rax), mv (.var 2) (.reg rax), { code := .div, first := some (.var 3), second := some (.imm 1), output := some (.reg rax) }]

/-- Only the last reader of a register is remembered (schedule.c:403): an earlier one is moved behind the instruction that gives the
register a new value.  So the condition of `RegsOk` on two readers is needed. -/
theorem C84_register_counterexample :
    ∃ r s, block idAmd64 readTwice = some r ∧ run arith readTwice s (.var 1) = 5 ∧ run arith r s (.var 1) = 7 := by
  exact ⟨_, fun l => if l = .var 3 then 7 else if l = rax.unit then 5 else 0, rfl, by decide +kernel, by decide +kernel⟩

/-! ### A block that meets the conditions -/

theorem get_range {ops : List Op} {i : Nat} {a : Op} (h : ops[i]? = some a) : i ∈ List.range ops.length :=
  List.mem_range.mpr (List.getElem?_eq_some_iff.mp h).1

def Loc.vars (ls : List Loc) : List Nat := ls.filterMap fun l => match l with | .var v => some v | _ => none

def varsB (ops : List Op) : Bool :=
  (List.range ops.length).all fun i => (List.range ops.length).all fun j => ops[i]?.toList.all fun a => ops[j]?.toList.all fun b =>
    (Loc.vars b.writes).all fun v => decide (i < j → .var v ∈ a.reads ∨ .var v ∈ a.writes → .var v ∈ a.writes ∧ .var v ∈ b.reads)

theorem varsOk_of {ops : List Op} (h : varsB ops = true) : VarsOk ops := by
  intro i j a b v hij ha hb hv h'
  have h1 := List.all_eq_true.mp h i (get_range ha)
  have h2 := List.all_eq_true.mp h1 j (get_range hb)
  have h3 := List.all_eq_true.mp h2 a (by simp [ha])
  have h4 := List.all_eq_true.mp h3 b (by simp [hb])
  have h5 := List.all_eq_true.mp h4 v (List.mem_filterMap.mpr ⟨_, hv, rfl⟩)
  exact of_decide_eq_true h5 hij h'

def Op.outReg (op : Op) : List Reg := match op.output with | some (.reg r) => [r] | _ => []
def Op.regsOf (op : Op) : List Reg := op.inRegs ++ op.outReg

theorem mem_outReg {op : Op} {r : Reg} : r ∈ op.outReg ↔ op.output = some (.reg r) := by
  unfold Op.outReg
  constructor
  · intro h
    split at h
    · rename_i h'; rw [List.mem_singleton] at h; rw [h]; exact h'
    · exact (List.not_mem_nil h).elim
  · intro h; rw [h]; simp

def freshB (id : Reg → Nat) (ops : List Op) : Bool :=
  (List.range ops.length).all fun i => (List.range ops.length).all fun k => ops[i]?.toList.all fun a => ops[k]?.toList.all fun b =>
    a.inRegs.all fun r => b.inRegs.all fun s => !(decide (i < k) && decide (id r = id s)) ||
      (List.range k).any fun d => decide (i ≤ d) && ops[d]?.toList.any fun c => c.outReg.any fun t => decide (id t = id r)

theorem regsOk_of {id : Reg → Nat} {ops : List Op}
    (h1 : ∀ a ∈ ops, ∀ b ∈ ops, ∀ r ∈ a.regsOf, ∀ s ∈ b.regsOf, r.unit = s.unit → id r = id s)
    (h2 : ∀ a ∈ ops, ∀ b ∈ ops, ∀ l ∈ (a.inputs ++ a.output.toList).flatMap Operand.addr, l ∉ b.writes) (h3 : freshB id ops = true) : RegsOk id ops := by
  refine ⟨?_, ?_, ?_⟩
  · intro a ha b hb r s hr hs
    refine h1 a ha b hb r ?_ s ?_
    · exact List.mem_append.mpr (hr.imp (fun h => h) (fun h => mem_outReg.mpr h))
    · exact List.mem_append.mpr (hs.imp (fun h => h) (fun h => mem_outReg.mpr h))
  · intro a ha b hb o ho f u hu
    exact h2 a ha b hb _ (List.mem_flatMap.mpr ⟨o, ho, hu⟩)
  · rintro i k a b n hik ha hb ⟨r, hr, rfl⟩ ⟨s, hs, es⟩ _
    have h4 := List.all_eq_true.mp h3 i (get_range ha)
    have h5 := List.all_eq_true.mp h4 k (get_range hb)
    have h6 := List.all_eq_true.mp h5 a (by simp [ha])
    have h7 := List.all_eq_true.mp h6 b (by simp [hb])
    have h8 := List.all_eq_true.mp h7 r hr
    have h9 := List.all_eq_true.mp h8 s hs
    rw [decide_eq_true hik, decide_eq_true es.symm, Bool.and_true, Bool.not_true, Bool.false_or] at h9
    obtain ⟨d, hd, h10⟩ := List.any_eq_true.mp h9
    obtain ⟨h11, h12⟩ := Bool.and_eq_true_iff.mp h10
    obtain ⟨c, hc, h13⟩ := List.any_eq_true.mp h12
    obtain ⟨t, ht, h14⟩ := List.any_eq_true.mp h13
    exact ⟨d, c, of_decide_eq_true h11, List.mem_range.mp hd, by simpa using hc, t, mem_outReg.mp ht, of_decide_eq_true h14⟩

theorem memOk_of {ops : List Op} (h : ∀ a ∈ ops, Loc.mem ∈ a.reads ∨ Loc.mem ∈ a.writes →
    ∃ o ∈ [a.first, a.second, a.output], ∃ p ∈ o.toList, (match p with | .ind _ _ => true | _ => false) = true) : MemOk ops := by
  intro _ a ha h'
  obtain ⟨o, ho, p, hp, h3⟩ := h a ha h'
  cases p with
  | ind b i => exact ⟨b, i, by rw [Option.mem_toList] at hp; rw [← hp]; exact ho⟩
  | _ => cases h3

/-- A division, a load, an addition, a store and a call, for amd64: clr rdx; mov rax, a; div (rax, rdx), b; mov x, rax; mov t, [p];
add t, x; mov [q], t; call; a remainder and a load from a global variable. -/
def sample : List Op :=
  [clr rdx, mv (.reg rax) (.var 0), { code := .div, first := some (.regs [rax, rdx]), second := some (.var 1), output := some (.reg rax) },
   mv (.var 3) (.reg rax), mv (.var 4) (.ind (some (.var 5)) none), addTo 4 (.var 3), mv (.ind (some (.var 6)) none) (.var 4),
   { code := .call },
   clr rdx, mv (.reg rax) (.var 4), { code := .div, first := some (.regs [rax, rdx]), second := some (.var 1), output := some (.reg rdx) },
   mv (.var 7) (.reg rdx), mv (.var 8) (.sym 0), addTo 8 (.imm 1)]

theorem sample_ok : ∀ seg ∈ segments [] sample, VarsOk seg ∧ RegsOk idAmd64 seg ∧ MemOk seg := by
  have e : segments [] sample = [sample.take 7, sample.drop 8] := by decide +kernel
  rw [e]
  intro seg h
  simp only [List.mem_cons, List.not_mem_nil, or_false] at h
  rcases h with rfl | rfl
  · exact ⟨varsOk_of (by decide +kernel), regsOk_of (by decide +kernel) (by decide +kernel) (by decide +kernel), memOk_of (by decide +kernel)⟩
  · refine ⟨varsOk_of (by decide +kernel), regsOk_of (by decide +kernel) (by decide +kernel) (by decide +kernel), ?_⟩
    rintro ⟨a, ha, h⟩
    exfalso
    revert a
    decide +kernel

/-- The block is changed by scheduling, and not in what it does. -/
example : ∃ r, block idAmd64 sample = some r ∧ r ≠ sample ∧ ∀ s, run arith r s = run arith sample s := by
  obtain ⟨r, h, _⟩ := C84_permutation idAmd64 sample
  refine ⟨r, h, ?_, fun s => C84_partial arith idAmd64 sample r h sample_ok s⟩
  have : block idAmd64 sample ≠ some sample := by decide +kernel
  intro e
  rw [e] at h
  exact this h

end Nature.Sched
