import Verif.Reloc.ThunkWrite
/-!
# C99: arm64 branches reach their target, however far it is

`ThunkSpec.lean` says what the processor does.  The theorems are about `plan` and `write` (ThunkModel.lean): the planning of range
extension thunks, and writing them and patching the branches.
-/
namespace Nature.Reloc.Thunk

/-- The value of the symbol a branch names. -/
def Value (inp : Input) (p : Plan) (b : Branch) (s : Nat) : Prop :=
  (∃ g, inp.resolved b.object b.symbol = some g ∧ p.env.global g = some s) ∨
    (inp.resolved b.object b.symbol = none ∧ p.env.local_ b.object b.symbol = some s)

theorem value_iff {inp : Input} {p : Plan} {b : Branch} {s : Nat} : symbolValue inp p.env b.object b.symbol = some s ↔ Value inp p b s := by
  unfold symbolValue Value
  cases inp.resolved b.object b.symbol <;> simp

/-- Branches of one section do not overlap. -/
def NoOverlap (inp : Input) : Prop :=
  ∀ (k k' : Nat) (b b' : Branch), k ≠ k' → inp.branches[k]? = some b → inp.branches[k']? = some b' → b.placement = b'.placement →
    b.offset + 4 ≤ b'.offset ∨ b'.offset + 4 ≤ b.offset

theorem addresses_some {inp : Input} {lay : Lay} {e : Env} {b : Branch} {q : Placement} {place target : Nat}
    (hq : inp.placements[b.placement]? = some q) (ht : q.text = true) (h : branchAddresses inp lay e b = some (place, target)) :
    place = e.text + (lay.offset b.placement + b.offset) ∧ ∃ s, symbolValue inp e b.object b.symbol = some s ∧ addSigned s b.addend = some target := by
  unfold branchAddresses at h
  rw [hq] at h
  simp only [ht, if_true] at h
  split at h
  · cases h
  · simp only [Option.bind_eq_some_iff] at h
    obtain ⟨o, ho, pl, hpl, s, hs, t, ht', h⟩ := h
    have e1 := addOverflow_some ho
    have e2 := addOverflow_some hpl
    split at h
    · cases h
    · have := Option.some.inj h
      simp only [Prod.mk.injEq] at this
      obtain ⟨rfl, rfl⟩ := this
      exact ⟨by rw [e2, e1], s, hs, ht'⟩

theorem target_key {inp : Input} {e : Env} {b : Branch} {s t : Nat} (hs : symbolValue inp e b.object b.symbol = some s)
    (ht : addSigned s b.addend = some t) : thunkTarget inp e (keyOf inp b) = some t := by
  unfold thunkTarget keyOf
  unfold symbolValue at hs
  cases hr : inp.resolved b.object b.symbol with
  | some g =>
    rw [hr] at hs
    simp only at hs ⊢
    rw [hs]
    exact ht
  | none =>
    rw [hr] at hs
    simp only at hs ⊢
    unfold symbolValue
    rw [hr]
    simp only
    rw [hs]
    exact ht

theorem thunkAddress_some {inp : Input} {p : Plan} (ok : PlanOk inp p) {g i a : Nat} (h : thunkAddress p.groups p.env g i = some a) :
    a = p.env.text + slotOff p (g, i) ∧ (g, i) ∈ slots p ∧ slotOff p (g, i) + 12 ≤ p.lay.size := by
  unfold thunkAddress at h
  split at h
  · cases h
  · split at h
    · cases h
    · rename_i hgc hic
      simp only [Option.bind_eq_some_iff] at h
      obtain ⟨o, ho, ha⟩ := h
      have e1 := addOverflow_some ho
      have e2 := addOverflow_some ha
      simp only [thunkSize] at e1
      have := (ok.laid.in_ (.isl g) ⟨by omega, Nat.zero_le _⟩).2
      simp only [Region.lo, Region.size] at this
      refine ⟨by unfold slotOff; simp only; omega, mem_slots.mpr ⟨by simp only; omega, by simp only; omega⟩, by unfold slotOff; simp only; omega⟩

/-- The step of a branch. -/
theorem step_branch {w : BitVec 32} {link : Bool} (hop : if link then IsBl w else IsB w) (c : Cpu) :
    step w c = some { x := fun r => if link ∧ r = 30 then c.pc + 4#64 else c.x r, pc := c.pc + (w.extractLsb' 0 26).signExtend 64 * 4#64 } := by
  unfold step
  simp only
  cases link with
  | false =>
    simp only [Bool.false_eq_true, if_false, IsB] at hop
    rw [if_pos hop]
    simp
  | true =>
    simp only [if_true, IsBl] at hop
    rw [hop, if_neg (by decide), if_pos rfl]
    simp [Cpu.put]

/-- **C99.** When the linker succeeds, a branch instruction of the code section reaches its symbol plus the addend, at whatever
distance, and a call returns behind itself; only x16 may change on the way. -/
theorem C99_reaches (inp : Input) (hs : Sound inp) (hno : NoOverlap inp) (p : Plan) (hp : plan inp = .ok p)
    (data data' : Bytes) (hlen : data.length = p.lay.size) (hw : write inp p data = some data')
    (k : Nat) (b : Branch) (hb : inp.branches[k]? = some b) (q : Placement) (hq : inp.placements[b.placement]? = some q) (ht : q.text = true)
    (link : Bool) (hop : if link then IsBl (insn (data.drop (p.lay.offset b.placement + b.offset)))
      else IsB (insn (data.drop (p.lay.offset b.placement + b.offset)))) :
    ∃ (s target : Nat), Value inp p b s ∧ (target : Int) = s + b.addend ∧
      Reaches p.env.text data' (p.env.text + (p.lay.offset b.placement + b.offset)) target link := by
  have ok := plan_ok hp
  obtain ⟨htext, _⟩ := hs.env _ _ ok.env
  unfold write at hw
  simp only [Option.bind_eq_some_iff] at hw
  obtain ⟨d, hd, hw⟩ := hw
  obtain ⟨l1, s1, o1⟩ := emit_loop ok (slots p) data d (fun _ h => h) hlen hd
  obtain ⟨l2, o2, b2⟩ := apply_loop ok hs inp.branches 0 d data' (fun _ h => h) (l1.trans hlen) hw
  have hlen' : data'.length = p.lay.size := by omega
  obtain ⟨⟨q', hq', hsz⟩, pat⟩ := b2 k b hb ⟨q, hq, ht⟩
  rw [hq] at hq'
  cases hq'
  have hin := brOff_in ok hq ht hsz
  -- the other branches are elsewhere
  have size_of : ∀ j b', inp.branches[j]? = some b' → InText inp b' → ∃ q', inp.placements[b'.placement]? = some q' ∧ b'.offset + 4 ≤ q'.size :=
    fun j b' h1 h2 => (b2 j b' h1 h2).1
  obtain ⟨x, x', hpat, hxx⟩ := pat (by
    intro j' b' hne hj' ht'
    unfold Apart brOff
    by_cases hpl : b.placement = b'.placement
    · have := hno k j' b b' (Ne.symm hne) hb hj' hpl
      rw [← hpl]
      omega
    · obtain ⟨q', hq', hqt'⟩ := ht'
      obtain ⟨q2, hq2, hsz2⟩ := size_of j' b' hj' ⟨q', hq', hqt'⟩
      rw [hq'] at hq2
      cases hq2
      have := ok.laid.apart (.sec b.placement) (.sec b'.placement) ⟨Nat.zero_le _, q, hq, ht⟩ ⟨Nat.zero_le _, q', hq', hqt'⟩
        (fun h => hpl (Region.sec.inj h))
      simp only [Region.lo, Region.size, hq, hq', Option.map_some, Option.getD_some] at this
      omega)
  rw [Nat.zero_add] at hpat
  obtain ⟨s, target, hsv, htg, goal, himm, hgoal⟩ := hpat.goes
  refine ⟨s, target, value_iff.mp hsv, addSigned_some htg, ?_⟩
  -- the word of the branch
  have hw1 : insn (data'.drop (brOff p b)) = insn (x'.drop (brOff p b)) := by
    apply insn_congr
    intro j hj
    rw [List.getElem?_drop, List.getElem?_drop]
    exact (hxx j hj).2
  have hw0 : insn (x.drop (brOff p b)) = insn (data.drop (brOff p b)) := by
    apply insn_congr
    intro j hj
    rw [List.getElem?_drop, List.getElem?_drop, (hxx j hj).1]
    apply o1
    intro sl hsl
    obtain ⟨m1, m2⟩ := mem_slots.mp hsl
    have := slot_sec ok m1 m2 hq ht
    unfold brOff
    omega
  have hop' : if link then IsBl (insn (data'.drop (brOff p b))) else IsB (insn (data'.drop (brOff p b))) := by
    have e : (insn (data'.drop (brOff p b))).extractLsb' 26 6 = (insn (data.drop (brOff p b))).extractLsb' 26 6 := by
      rw [hw1, hpat.op, hw0]
    cases link with
    | false => simp only [Bool.false_eq_true, if_false, IsB] at hop ⊢; rw [e]; exact hop
    | true => simp only [if_true, IsBl] at hop ⊢; rw [e]; exact hop
  rw [← hw1] at himm
  intro c hpc
  have hpl : p.lay.offset b.placement + b.offset = brOff p b := rfl
  rw [hpl] at hpc
  have st := step_branch hop' c
  rw [hpc, branch_target himm, ← hpc] at st
  have run1 : ∀ n, run p.env.text data' (n + 1) c = run p.env.text data' n
      { x := fun r => if link ∧ r = 30 then c.pc + 4#64 else c.x r, pc := BitVec.ofNat 64 goal } := by
    intro n
    refine run_step hpc (by omega) (by omega) (by omega) ?_
    rw [show p.env.text + brOff p b - p.env.text = brOff p b from by omega]
    exact st
  rcases hgoal with ⟨_, rfl⟩ | ⟨hf, g, i, hg, hi, ha⟩
  · refine ⟨1, _, run1 0, rfl, ?_, ?_⟩
    · simp
    · intro r _ hr
      simp [hr]
  · -- through the thunk
    obtain ⟨place, target', h1, h2⟩ := ok.served k b hb
    obtain ⟨hplace, s', hs', ht'⟩ := addresses_some hq ht h1
    rw [hsv] at hs'
    cases hs'
    rw [htg] at ht'
    cases ht'
    rw [hplace] at h2
    rcases h2 with h2 | ⟨gi, i', a, e, h3, h4, h5, h6, h7, h8, h9, h10⟩
    · rw [show p.lay.offset b.placement + b.offset = brOff p b from rfl, hf] at h2
      cases h2
    · rw [hg] at h3
      rw [hi] at h5
      cases h3
      cases h5
      rw [ha] at h6
      cases h6
      obtain ⟨a1, a2, a3⟩ := thunkAddress_some ok ha
      obtain ⟨bytes, t1, t2, t3⟩ := s1 (g, i) a2 (.inr a2)
      have henc : encode goal target = some bytes := by
        unfold slotBytes at t1
        simp only [h8, Option.bind_some, h9, Bool.not_true, Bool.false_eq_true, if_false, ha, h10, target_key hsv htg] at t1
        exact t1
      have hl12 := encode_length henc
      have holds : Holds data' (goal - p.env.text) bytes := by
        rw [a1, show p.env.text + slotOff p (g, i) - p.env.text = slotOff p (g, i) from by omega]
        intro j hj
        rw [o2]
        · exact t3 j hj
        · intro b' hb' htx
          obtain ⟨j', hj', rfl⟩ := List.mem_iff_getElem.mp hb'
          obtain ⟨q', hq', hsz'⟩ := size_of j' _ (List.getElem?_eq_getElem hj') htx
          obtain ⟨q2, hq2, hqt2⟩ := htx
          rw [hq'] at hq2
          cases hq2
          obtain ⟨m1, m2⟩ := mem_slots.mp a2
          have := slot_sec ok m1 m2 hq' hqt2
          unfold brOff
          omega
      obtain ⟨c', r1, r2, r3⟩ := thunk_runs (base := p.env.text) (thunk := goal) (target := target) (text := data') (by omega) (by omega) (by omega)
        henc holds { x := fun r => if link ∧ r = 30 then c.pc + 4#64 else c.x r, pc := BitVec.ofNat 64 goal } rfl
      refine ⟨4, c', by rw [run1 3]; exact r1, r2, ?_, ?_⟩
      · rw [r3 30 (by omega)]
        simp
      · intro r hr1 hr2
        rw [r3 r hr1]
        simp [hr2]

/-- **C99.** The planning never gives up for want of convergence, whatever the layout of the other sections does. -/
theorem C99_converges (inp : Input) : plan inp ≠ .error .notConverged := by
  unfold plan
  split
  · simp
  · rename_i g hg
    exact planLoop_converges _ _ _ _ (wf_build hg).1 (by omega)

/-- **C99.** No two input sections, no two thunk groups and no section and thunk group overlap; all lie in the code section, every
section is aligned as it asks, thunks are aligned to four bytes, and other sections are not moved. -/
theorem C99_layout (inp : Input) (p : Plan) (hp : plan inp = .ok p) :
    (∀ i q, inp.placements[i]? = some q → q.text = true → p.lay.offset i + q.size ≤ p.lay.size ∧ (q.align ≠ 0 → q.align ∣ p.lay.offset i)) ∧
    (∀ g, g < p.groups.count → (p.groups.at_ g).island + (p.groups.at_ g).entries.length * 12 ≤ p.lay.size ∧
      ((p.groups.at_ g).entries ≠ [] → 4 ∣ (p.groups.at_ g).island)) ∧
    (∀ i j q r, i ≠ j → inp.placements[i]? = some q → inp.placements[j]? = some r → q.text = true → r.text = true →
      p.lay.offset i + q.size ≤ p.lay.offset j ∨ p.lay.offset j + r.size ≤ p.lay.offset i) ∧
    (∀ i q g, inp.placements[i]? = some q → q.text = true → g < p.groups.count → p.lay.offset i + q.size ≤ (p.groups.at_ g).island ∨
      (p.groups.at_ g).island + (p.groups.at_ g).entries.length * 12 ≤ p.lay.offset i) ∧
    (∀ g h, g ≠ h → g < p.groups.count → h < p.groups.count →
      (p.groups.at_ g).island + (p.groups.at_ g).entries.length * 12 ≤ (p.groups.at_ h).island ∨
      (p.groups.at_ h).island + (p.groups.at_ h).entries.length * 12 ≤ (p.groups.at_ g).island) ∧
    (∀ i q, inp.placements[i]? = some q → q.text = false → p.lay.offset i = inp.offset i) := by
  have ok := plan_ok hp
  refine ⟨?_, ?_, ?_, ?_, ?_, ok.rest⟩
  · intro i q hq ht
    have := (ok.laid.in_ (.sec i) ⟨Nat.zero_le _, q, hq, ht⟩).2
    simp only [Region.lo, Region.size, hq, Option.map_some, Option.getD_some] at this
    refine ⟨this, ?_⟩
    intro ha
    have := ok.align i q hq ht
    rw [if_neg ha] at this
    exact Nat.dvd_of_mod_eq_zero this
  · intro g hg
    have := (ok.laid.in_ (.isl g) ⟨hg, Nat.zero_le _⟩).2
    exact ⟨this, fun h => Nat.dvd_of_mod_eq_zero (ok.aligned g hg h)⟩
  · intro i j q r hne hq hr ht ht'
    have := ok.laid.apart (.sec i) (.sec j) ⟨Nat.zero_le _, q, hq, ht⟩ ⟨Nat.zero_le _, r, hr, ht'⟩ (fun h => hne (Region.sec.inj h))
    simp only [Region.lo, Region.size, hq, hr, Option.map_some, Option.getD_some] at this
    exact this
  · intro i q g hq ht hg
    have := ok.laid.apart (.sec i) (.isl g) ⟨Nat.zero_le _, q, hq, ht⟩ ⟨hg, Nat.zero_le _⟩ (by intro h; cases h)
    simp only [Region.lo, Region.size, hq, Option.map_some, Option.getD_some] at this
    exact this
  · intro g h hne hg hh
    exact ok.laid.apart (.isl g) (.isl h) ⟨hg, Nat.zero_le _⟩ ⟨hh, Nat.zero_le _⟩ (fun e => hne (Region.isl.inj e))

/-- **C99.** Every byte that belongs neither to a branch nor to a thunk group is as before. -/
theorem C99_rest (inp : Input) (hs : Sound inp) (p : Plan) (hp : plan inp = .ok p)
    (data data' : Bytes) (hlen : data.length = p.lay.size) (hw : write inp p data = some data') (i : Nat)
    (h1 : ∀ b ∈ inp.branches, i < p.lay.offset b.placement + b.offset ∨ p.lay.offset b.placement + b.offset + 4 ≤ i)
    (h2 : ∀ g, g < p.groups.count → i < (p.groups.at_ g).island ∨ (p.groups.at_ g).island + (p.groups.at_ g).entries.length * 12 ≤ i) :
    data'.length = data.length ∧ data'[i]? = data[i]? := by
  have ok := plan_ok hp
  unfold write at hw
  simp only [Option.bind_eq_some_iff] at hw
  obtain ⟨d, hd, hw⟩ := hw
  obtain ⟨l1, s1, o1⟩ := emit_loop ok (slots p) data d (fun _ h => h) hlen hd
  obtain ⟨l2, o2, b2⟩ := apply_loop ok hs inp.branches 0 d data' (fun _ h => h) (l1.trans hlen) hw
  refine ⟨l2.trans l1, ?_⟩
  rw [o2 i (fun b hb _ => h1 b hb), o1]
  intro s hs
  obtain ⟨m1, m2⟩ := mem_slots.mp hs
  have := h2 s.1 m1
  unfold slotOff
  omega

/-- **C99.** A thunk that is written serves a branch of its group that cannot reach its target directly: the distance is not
within 128 MiB. -/
theorem C99_needed (inp : Input) (hs : Sound inp) (p : Plan) (hp : plan inp = .ok p) (g i : Nat) (e : Entry)
    (he : (p.groups.at_ g).entries[i]? = some e) (hu : e.used = true) :
    ∃ (k : Nat) (b : Branch), inp.branches[k]? = some b ∧ p.groups.of b.placement = some g ∧ ∀ (q : Placement) (s : Nat),
      inp.placements[b.placement]? = some q → q.text = true → Value inp p b s →
      let distance : Int := s + b.addend - (p.env.text + (p.lay.offset b.placement + b.offset) : Nat)
      distance < -2 ^ 27 ∨ 2 ^ 27 ≤ distance := by
  have ok := plan_ok hp
  obtain ⟨k, b, place, target, h1, h2, h3, h4, h5⟩ := ok.needed g i e he hu
  refine ⟨k, b, h1, h5, ?_⟩
  intro q s hq ht hv
  obtain ⟨hplace, s', hs', ht'⟩ := addresses_some hq ht h2
  rw [value_iff.mpr hv] at hs'
  cases hs'
  have htg := addSigned_some ht'
  have hal : place % 4 = 0 ∧ target % 4 = 0 := by
    unfold branchAddresses at h2
    rw [hq] at h2
    simp only at h2
    split at h2
    · cases h2
    · simp only [Option.bind_eq_some_iff] at h2
      obtain ⟨o, ho, pl, hpl, s2, hs2, t, ht2, h⟩ := h2
      split at h
      · cases h
      · have := Option.some.inj h
        simp only [Prod.mk.injEq] at this
        omega
  unfold branch26Fits at h3
  rw [if_neg (by omega)] at h3
  intro distance
  simp only [distance]
  split at h3
  · have : ¬ target - place ≤ 0x07fffffc := by simpa using h3
    omega
  · have : ¬ place - target ≤ 0x08000000 := by simpa using h3
    omega

/-! ### A far call -/

/-- One section of sixteen bytes with a call and a jump to symbols 512 MiB away and a call nearby. -/
def example_ : Input where
  placements := [⟨true, 4, 16⟩, ⟨false, 8, 8⟩, ⟨true, 16, 4⟩]
  branches := [⟨283, 0, 4, 0, 1, 8⟩, ⟨282, 0, 8, 0, 1, 8⟩, ⟨283, 2, 0, 0, 2, 0⟩]
  resolved := fun _ s => if s = 1 then some 7 else none
  offset := fun i => if i = 2 then 16 else 0
  outputs := fun lay => if lay.size ≤ 0x1000000 then some ⟨0x10000, fun _ => 0x20000000, fun _ => some 0x20000ff8, fun _ _ => some 0x10000⟩ else none

def exampleCode : Bytes := writeU32 [] 0xd503201f#32 ++ writeU32 [] 0x94000000#32 ++ writeU32 [] 0x14000000#32 ++ writeU32 [] 0xd65f03c0#32 ++
  writeU32 [] 0x94000000#32 ++ List.replicate 12 0#8

/-- The plan has one thunk behind both sections, for both far branches, and the result is written. -/
def examplePlan : Option Plan := match plan example_ with
  | .ok p => some p
  | .error _ => none

example : (examplePlan.map fun p => [p.lay.size, (p.groups.at_ 0).entries.length, (p.groups.at_ 0).island]) = some [32, 1, 20] := by
  decide +kernel

example : (examplePlan.map fun p => [p.index 0, p.index 1, p.index 2]) = some [some 0, some 0, none] := by decide +kernel

example : (examplePlan.bind fun p => (write example_ p exampleCode).map fun d =>
      [insn (d.drop 4), insn (d.drop 8), insn (d.drop 16), insn (d.drop 20), insn (d.drop 24), insn (d.drop 28)]) =
    some [0x94000004#32, 0x14000003#32, 0x97fffffc#32, 0xb00fff90#32, 0x91000210#32, 0xd61f0200#32] := by decide +kernel

theorem example_sound : Sound example_ := by
  constructor
  · intro lay e h
    simp only [example_] at h
    split at h
    · have := Option.some.inj h
      subst this
      refine ⟨by simp only; omega, ?_, ?_⟩
      · intro g v hv
        simp only [Option.some.injEq] at hv
        omega
      · intro o s v hv
        simp only [Option.some.injEq] at hv
        omega
    · cases h
  · intro b hb
    simp [example_] at hb
    rcases hb with rfl | rfl | rfl <;> exact ⟨by simp, by constructor <;> decide⟩

example : NoOverlap example_ := by
  intro k k' b b' hne hk hk' hp
  have hb := List.mem_of_getElem? hk
  match k, k', hne, hk, hk' with
  | 0, 1, _, h, h' => simp [example_] at h h'; subst h; subst h'; simp
  | 1, 0, _, h, h' => simp [example_] at h h'; subst h; subst h'; simp
  | 0, 2, _, h, h' => simp [example_] at h h'; subst h; subst h'; simp at hp
  | 2, 0, _, h, h' => simp [example_] at h h'; subst h; subst h'; simp at hp
  | 1, 2, _, h, h' => simp [example_] at h h'; subst h; subst h'; simp at hp
  | 2, 1, _, h, h' => simp [example_] at h h'; subst h; subst h'; simp at hp
  | 0, 0, n, _, _ => exact absurd rfl n
  | 1, 1, n, _, _ => exact absurd rfl n
  | 2, 2, n, _, _ => exact absurd rfl n
  | k + 3, _, _, h, _ => simp [example_] at h
  | _, k + 3, _, _, h => simp [example_] at h

end Nature.Reloc.Thunk
