import Verif.Resolve.Spec
/-! Proofs for C37. -/
namespace Nature.Resolve

theorem run_append {V : Type} (K : Nat → V) (σ : State V) (a b : List Ins) : run K σ (a ++ b) = run K (run K σ a) b :=
  List.foldl_append ..

/-- A list without repetition contained in a list of the same length contains it. -/
theorem pigeon {α : Type} [DecidableEq α] (d s : List α) (hd : d.Nodup) (hs : ∀ x ∈ d, x ∈ s) (hl : s.length ≤ d.length) :
    ∀ x ∈ s, x ∈ d := by
  induction d generalizing s with
  | nil => cases s with
    | nil => exact fun x h => h
    | cons a s => simp at hl
  | cons a d ih =>
    intro x hx
    obtain ⟨ha, hd'⟩ := List.nodup_cons.1 hd
    by_cases e : x = a
    · rw [e]; exact List.mem_cons_self ..
    · refine List.mem_cons_of_mem _ (ih (s.erase a) hd' ?_ ?_ x ((List.mem_erase_of_ne e).2 hx))
      · intro y hy
        refine (List.mem_erase_of_ne ?_).2 (hs y (List.mem_cons_of_mem _ hy))
        intro e; exact ha (e ▸ hy)
      · rw [List.length_erase_of_mem (hs a (List.mem_cons_self ..))]
        simp only [List.length_cons] at hl
        omega

theorem nodup_mid {α : Type} {x y : List α} {a : α} (h : (x ++ a :: y).Nodup) : a ∉ x ++ y ∧ (x ++ y).Nodup := by
  have h' : (a :: (x ++ y)).Nodup := (List.perm_middle.nodup_iff).1 h
  exact List.nodup_cons.1 h'

theorem erase_len {α : Type} {l : List α} {i : Nat} (h : i < l.length) : (l.eraseIdx i).length + 1 = l.length := by
  rw [List.length_eraseIdx, if_pos h]; omega

/-- How many pending entries read register `r`. -/
def uses (l : List Item) (r : Nat) : Nat := l.countP fun it => it.src == .reg r

theorem countRegs_eq (l : List Item) (r : Nat) : countRegs l r = BitVec.ofNat 8 (uses l r) := by
  induction l with
  | nil => rfl
  | cons it l ih =>
    unfold uses at *
    rw [countRegs]
    cases h : it.src with
    | reg x =>
      simp only
      by_cases e : r = x
      · rw [if_pos e, ih, List.countP_cons_of_pos (by simp [h, e]), BitVec.ofNat_add]
        rfl
      · rw [if_neg e, ih, List.countP_cons_of_neg (by simp [h]; exact fun e2 => e e2.symm)]
    | stack s =>
      simp only
      rw [ih, List.countP_cons_of_neg (by simp [h])]

theorem split_at {α : Type} {l : List α} {i : Nat} {a : α} (h : l[i]? = some a) : ∃ x y, l = x ++ a :: y ∧ x.length = i := by
  obtain ⟨hi, e⟩ := List.getElem?_eq_some_iff.1 h
  exact ⟨l.take i, l.drop (i + 1), by rw [← e]; simp, by simp; omega⟩

theorem uses_split (x y : List Item) (a : Item) (r : Nat) :
    uses (x ++ a :: y) r = uses (x ++ y) r + if a.src = .reg r then 1 else 0 := by
  unfold uses
  rw [List.countP_append, List.countP_append]
  by_cases h : a.src = .reg r
  · rw [List.countP_cons_of_pos (by simp [h]), if_pos h]; omega
  · rw [List.countP_cons_of_neg (by simp [h]), if_neg h]; omega

theorem uses_zero {l : List Item} {r : Nat} (h : uses l r = 0) : ∀ q ∈ l, q.src ≠ .reg r := by
  intro q hq e
  unfold uses at h
  rw [List.countP_eq_zero] at h
  exact h q hq (by simp [e])

theorem uses_pos {l : List Item} {r : Nat} (h : 0 < uses l r) : ∃ q ∈ l, q.src = .reg r := by
  unfold uses at h
  obtain ⟨q, hq, e⟩ := List.countP_pos_iff.1 h
  exact ⟨q, hq, by simpa using e⟩

theorem ofNat8 {c : Nat} (h : c < 256) (k : Nat) (hk : k < 256) : BitVec.ofNat 8 c = BitVec.ofNat 8 k ↔ c = k := by
  constructor
  · intro e
    have := congrArg BitVec.toNat e
    simp only [BitVec.toNat_ofNat] at this
    omega
  · intro e; rw [e]

variable {V : Type} {K : Nat → V} {l : List Item} {σ0 : State V}

structure Inv (K : Nat → V) (l : List Item) (σ0 : State V) (s : St) : Prop where
  pend : ∀ p ∈ s.pend, ∃ o ∈ l, p.dst = o.dst ∧ p.home = o.home ∧ p.const = o.const ∧
    (p.src = o.src ∨ (p.src = .stack o.home ∧ o.dst.isStack = false)) ∧ run K σ0 s.out p.src = σ0 o.src
  all : ∀ o ∈ l, (∃ p ∈ s.pend, p.dst = o.dst) ∨
    ((o.const = none → run K σ0 s.out o.dst = σ0 o.src) ∧ ∀ c r, o.const = some c → o.dst = .reg r → run K σ0 s.out o.dst = K c)
  rest : ∀ x, (∀ o ∈ l, o.dst ≠ x ∧ .stack o.home ≠ x) → run K σ0 s.out x = σ0 x
  block : ∀ r, s.block r = BitVec.ofNat 8 (uses s.pend r)
  small : ∀ r, uses s.pend r < 256
  nodup : (s.pend.map Item.dst).Nodup

theorem Mapping.eq_of_dst (h : Mapping l) {a b : Item} (ha : a ∈ l) (hb : b ∈ l) (e : a.dst = b.dst) : a = b := by
  obtain ⟨i, hi, ea⟩ := List.getElem_of_mem ha
  obtain ⟨j, hj, eb⟩ := List.getElem_of_mem hb
  have : i = j := by
    refine (List.getElem?_inj (l := l.map Item.dst) (by simpa using hi) h.distinct).1 ?_
    simp only [List.getElem?_map, List.getElem?_eq_getElem hi, List.getElem?_eq_getElem hj, Option.map_some, ea, eb, e]
  subst this
  rw [← ea, ← eb]

/-- Not blocked: nothing else pending reads the target. -/
theorem not_blocked {s : St} (inv : Inv K l σ0 s) {x y : List Item} {p : Item} (hp : s.pend = x ++ p :: y)
    (h : blocked s.block p = false) {r : Nat} (hr : p.dst = .reg r) : ∀ q ∈ x ++ y, q.src ≠ .reg r := by
  apply uses_zero
  have hs := inv.small r
  have hb := inv.block r
  rw [hp, uses_split] at hs hb
  unfold blocked at h
  rw [hr] at h
  simp only at h
  by_cases h0 : s.block r = 0
  · rw [h0] at hb
    have := (ofNat8 hs 0 (by omega)).1 hb.symm
    omega
  · rw [if_neg h0] at h
    by_cases h1 : s.block r = 1 ∧ p.src = .reg r
    · rw [h1.1, if_pos h1.2] at hb
      rw [if_pos h1.2] at hs
      have := (ofNat8 hs 1 (by omega)).1 hb.symm
      omega
    · rw [if_neg h1] at h; cases h

/-- Blocked: something pending, possibly the entry itself, reads the target. -/
theorem is_blocked {s : St} (inv : Inv K l σ0 s) {p : Item} (h : blocked s.block p = true) :
    ∃ r, p.dst = .reg r ∧ ∃ q ∈ s.pend, q.src = .reg r := by
  unfold blocked at h
  cases hd : p.dst with
  | stack t => rw [hd] at h; cases h
  | reg r =>
    rw [hd] at h
    simp only at h
    refine ⟨r, rfl, uses_pos ?_⟩
    by_cases h0 : s.block r = 0
    · rw [if_pos h0] at h; cases h
    · rw [inv.block r] at h0
      rcases Nat.eq_zero_or_pos (uses s.pend r) with e | e
      · rw [e] at h0; exact absurd rfl h0
      · exact e

theorem Inv.release {s : St} (inv : Inv K l σ0 s) {x y : List Item} {p : Item} (hp : s.pend = x ++ p :: y) (r : Nat) :
    Resolve.release s.block p.src r = BitVec.ofNat 8 (uses (x ++ y) r) := by
  have hb := inv.block r
  have hs := inv.small r
  rw [hp, uses_split] at hb hs
  unfold Resolve.release
  cases e : p.src with
  | stack t =>
    simp only
    rw [hb, if_neg (by rw [e]; exact Loc.noConfusion), Nat.add_zero]
  | reg q =>
    simp only
    by_cases h : r = q
    · rw [if_pos h, hb, if_pos (by rw [e, h]), BitVec.ofNat_add]
      exact BitVec.add_sub_cancel _ _
    · rw [if_neg h, hb, if_neg (by rw [e]; exact fun e2 => h (Loc.reg.inj e2).symm), Nat.add_zero]

theorem run_insFor {σ : State V} (p : Item) (x : Loc) : run K σ (insFor p) x =
    (if x = p.dst then (match p.const with | none => σ p.src | some c => if p.dst.isStack then σ x else K c) else σ x) := by
  unfold insFor
  cases p.const with
  | none => rfl
  | some c =>
    simp only
    cases h : p.dst.isStack with
    | true => simp [run]
    | false => simp [run, exec]

/-- Processing one entry. -/
theorem Inv.step {s : St} (hm : Mapping l) (inv : Inv K l σ0 s) {i : Nat} {p : Item} (hi : s.pend[i]? = some p)
    (hb : blocked s.block p = false) :
    Inv K l σ0 { s with out := s.out ++ insFor p, block := Resolve.release s.block p.src, pend := s.pend.eraseIdx i } := by
  obtain ⟨x, y, hp, hx⟩ := split_at hi
  have he : s.pend.eraseIdx i = x ++ y := by
    rw [hp, ← hx, List.eraseIdx_append_of_length_le (Nat.le_refl _), Nat.sub_self]; rfl
  have hmem : ∀ q ∈ x ++ y, q ∈ s.pend ∧ q.dst ≠ p.dst := by
    intro q hq
    have hn := inv.nodup
    rw [hp, List.map_append, List.map_cons] at hn
    have hn' := nodup_mid hn
    constructor
    · rw [hp]
      rcases List.mem_append.1 hq with h | h
      · exact List.mem_append_left _ h
      · exact List.mem_append_right _ (List.mem_cons_of_mem _ h)
    · intro e
      refine hn'.1 ?_
      rw [← e, ← List.map_append]
      exact List.mem_map_of_mem hq
  have hpm : p ∈ s.pend := by rw [hp]; simp
  obtain ⟨o, ho, e1, e2, e3, e4, e5⟩ := inv.pend p hpm
  have hrun : ∀ z, run K σ0 (s.out ++ insFor p) z =
      (if z = p.dst then (match p.const with | none => run K σ0 s.out p.src | some c => if p.dst.isStack then run K σ0 s.out z else K c)
        else run K σ0 s.out z) := by
    intro z; rw [run_append]; exact run_insFor p z
  constructor
  · simp only
    rw [he]
    intro q hq
    obtain ⟨hq1, hq2⟩ := hmem q hq
    obtain ⟨o', ho', f1, f2, f3, f4, f5⟩ := inv.pend q hq1
    refine ⟨o', ho', f1, f2, f3, f4, ?_⟩
    rw [hrun]
    by_cases h : q.src = p.dst
    · rw [if_pos h]
      cases hd : p.dst with
      | reg r => exact absurd (h.trans hd) (not_blocked inv hp hb hd q hq)
      | stack t =>
        rw [hd] at h e1
        rcases f4 with f | ⟨f, _⟩
        · exact absurd e1.symm (hm.slots o' ho' o ho t (f.symm.trans h))
        · cases hc : p.const with
          | some c =>
            simp only [Loc.isStack, if_true]
            exact f5
          | none =>
            simp only
            rw [e5]
            have : o.dst = .stack o'.home := by rw [← e1, ← h, f]
            rw [hm.homeDst o' ho' o ho this]
    · rw [if_neg h]; exact f5
  · simp only
    rw [he]
    intro o' ho'
    by_cases h : o'.dst = p.dst
    · have := hm.eq_of_dst ho' ho (h.trans e1)
      subst this
      right
      rw [hrun, if_pos h, e3]
      refine ⟨fun hc => ?_, fun c r hc hr => ?_⟩
      · rw [hc]; exact e5
      · rw [hc]
        simp only
        rw [e1, hr]; rfl
    · rcases inv.all o' ho' with ⟨q, hq, hqd⟩ | hdone
      · left
        refine ⟨q, ?_, hqd⟩
        rw [hp] at hq
        rcases List.mem_append.1 hq with h1 | h1
        · exact List.mem_append_left _ h1
        · rcases List.mem_cons.1 h1 with h2 | h2
          · subst h2; exact absurd hqd.symm h
          · exact List.mem_append_right _ h2
      · right
        rw [hrun, if_neg h]
        exact hdone
  · simp only
    intro z hz
    rw [hrun, if_neg (by rw [e1]; exact fun e => (hz o ho).1 e.symm)]
    exact inv.rest z hz
  · simp only
    rw [he]
    exact inv.release hp
  · simp only
    rw [he]
    intro r
    have := inv.small r
    rw [hp, uses_split] at this
    omega
  · simp only
    have := inv.nodup
    rw [hp, List.map_append, List.map_cons] at this
    rw [he, List.map_append]
    exact (nodup_mid this).2

/-- Entries that are all blocked read only registers. -/
theorem stuck_regs {s : St} (inv : Inv K l σ0 s) (h : ∀ p ∈ s.pend, blocked s.block p = true) :
    ∀ p ∈ s.pend, ∃ r, p.src = .reg r := by
  have hsub : ∀ x ∈ s.pend.map Item.dst, x ∈ s.pend.map Item.src := by
    intro x hx
    obtain ⟨p, hp, e⟩ := List.mem_map.1 hx
    obtain ⟨r, e1, q, hq, e2⟩ := is_blocked inv (h p hp)
    rw [← e, e1, ← e2]
    exact List.mem_map_of_mem hq
  have := pigeon _ _ inv.nodup hsub (by simp)
  intro p hp
  obtain ⟨q, hq, e⟩ := List.mem_map.1 (this _ (List.mem_map_of_mem hp))
  obtain ⟨r, e1, _⟩ := is_blocked inv (h q hq)
  exact ⟨r, by rw [← e, e1]⟩

theorem set_split {α : Type} (x y : List α) (a b : α) : (x ++ a :: y).set x.length b = x ++ b :: y := by
  induction x with
  | nil => rfl
  | cons c x ih => simp [ih]

/-- Spilling the candidate. -/
theorem Inv.spill {s : St} (hm : Mapping l) (inv : Inv K l σ0 s) {i : Nat} {p : Item} (hi : s.pend[i]? = some p)
    (hb : blocked s.block p = true) {r : Nat} (hr : p.src = .reg r) :
    Inv K l σ0 { s with out := s.out ++ [.mov p.src (.stack p.home)], block := Resolve.release s.block p.src,
                        pend := s.pend.set i { p with src := .stack p.home } } := by
  obtain ⟨x, y, hp, hx⟩ := split_at hi
  have he : s.pend.set i { p with src := .stack p.home } = x ++ { p with src := .stack p.home } :: y := by
    rw [hp, ← hx, set_split]
  have hpm : p ∈ s.pend := by rw [hp]; simp
  obtain ⟨o, ho, e1, e2, e3, e4, e5⟩ := inv.pend p hpm
  have hsrc : o.src = .reg r := by
    rcases e4 with e | ⟨e, _⟩
    · rw [← e, hr]
    · rw [hr] at e; cases e
  have hdst : o.dst.isStack = false := by
    obtain ⟨q, hq, _⟩ := is_blocked inv hb
    rw [← e1, hq]; rfl
  have hrun : ∀ z, run K σ0 (s.out ++ [.mov p.src (.stack p.home)]) z =
      if z = .stack o.home then σ0 o.src else run K σ0 s.out z := by
    intro z; rw [run_append, e2, ← e5]; rfl
  constructor
  · simp only
    rw [he]
    intro q hq
    have hcase : q = { p with src := .stack p.home } ∨ (q ∈ s.pend) := by
      rcases List.mem_append.1 hq with h | h
      · exact .inr (by rw [hp]; exact List.mem_append_left _ h)
      · rcases List.mem_cons.1 h with h | h
        · exact .inl h
        · exact .inr (by rw [hp]; exact List.mem_append_right _ (List.mem_cons_of_mem _ h))
    rcases hcase with h | h
    · subst h
      refine ⟨o, ho, e1, e2, e3, .inr ⟨by simp only [e2], hdst⟩, ?_⟩
      rw [hrun]; simp only
      rw [e2, if_pos rfl]
    · obtain ⟨o', ho', f1, f2, f3, f4, f5⟩ := inv.pend q h
      refine ⟨o', ho', f1, f2, f3, f4, ?_⟩
      rw [hrun]
      by_cases hz : q.src = .stack o.home
      · rw [if_pos hz]
        rcases f4 with f | ⟨f, _⟩
        · have := hm.homeSrc o ho o' ho' (f.symm.trans hz)
          rw [hsrc] at this; cases this
        · rw [f] at hz
          rw [hm.homeHome o ho o' ho' (Loc.stack.inj hz).symm]
      · rw [if_neg hz]; exact f5
  · simp only
    rw [he]
    intro o' ho'
    rcases inv.all o' ho' with ⟨q, hq, hqd⟩ | ⟨h1, h2⟩
    · left
      rw [hp] at hq
      rcases List.mem_append.1 hq with h | h
      · exact ⟨q, List.mem_append_left _ h, hqd⟩
      · rcases List.mem_cons.1 h with h | h
        · exact ⟨_, List.mem_append_right _ (List.mem_cons_self ..), by rw [← hqd, h]⟩
        · exact ⟨q, List.mem_append_right _ (List.mem_cons_of_mem _ h), hqd⟩
    · right
      rw [hrun]
      by_cases hz : o'.dst = .stack o.home
      · rw [if_pos hz]
        refine ⟨fun _ => by rw [hm.homeDst o ho o' ho' hz], fun c q _ hq => ?_⟩
        rw [hz] at hq; cases hq
      · rw [if_neg hz]; exact ⟨h1, h2⟩
  · simp only
    intro z hz
    rw [hrun, if_neg (fun e => (hz o ho).2 e.symm)]
    exact inv.rest z hz
  · simp only
    rw [he]
    intro q
    rw [uses_split, if_neg (by simp), Nat.add_zero]
    exact inv.release hp q
  · simp only
    rw [he]
    intro q
    have := inv.small q
    rw [hp, uses_split] at this
    rw [uses_split, if_neg (by simp)]
    omega
  · simp only
    rw [he]
    have := inv.nodup
    rw [hp] at this
    simpa using this

/-- Entries not finished, plus those of them still in a register. -/
def meas (s : St) : Nat := s.pend.length + s.pend.countP fun it => !it.src.isStack

theorem meas_erase {l : List Item} {i : Nat} (h : i < l.length) :
    (l.eraseIdx i).length + (l.eraseIdx i).countP (fun it => !it.src.isStack) < l.length + l.countP fun it => !it.src.isStack := by
  have h1 := erase_len h
  have h2 := (List.eraseIdx_sublist l i).countP_le (p := fun it => !it.src.isStack)
  omega

theorem pass_spec (hm : Mapping l) (k i : Nat) (s : St) (pr : Bool) (inv : Inv K l σ0 s) (hk : s.pend.length ≤ i + k) :
    ∃ s' b, pass k i s pr = some (s', pr || b) ∧ Inv K l σ0 s' ∧ (b = true → meas s' < meas s) ∧
      (b = false → s'.pend = s.pend ∧ s'.block = s.block ∧ (∀ j p, i ≤ j → s.pend[j]? = some p → blocked s.block p = true) ∧
        (i < s.pend.length → s'.cand = some (s.pend.length - 1))) := by
  induction k generalizing i s pr with
  | zero =>
    refine ⟨s, false, by simp [pass], inv, by simp, fun _ => ⟨rfl, rfl, ?_, fun h => by omega⟩⟩
    intro j p hj hp
    have := (List.getElem?_eq_some_iff.1 hp).1
    omega
  | succ k ih =>
    rw [pass]
    cases hi : s.pend[i]? with
    | none =>
      simp only
      have hlen := List.getElem?_eq_none_iff.1 hi
      refine ⟨s, false, by simp, inv, by simp, fun _ => ⟨rfl, rfl, ?_, fun h => by omega⟩⟩
      intro j p hj hp
      have := (List.getElem?_eq_some_iff.1 hp).1
      omega
    | some p =>
      simp only
      have hilen := (List.getElem?_eq_some_iff.1 hi).1
      have hnss : (p.src.isStack && p.dst.isStack) = false := by
        obtain ⟨o, ho, e1, _, _, e4, _⟩ := inv.pend p (List.mem_of_getElem? hi)
        rcases e4 with e | ⟨e, e'⟩
        · have := hm.noSlotToSlot o ho
          rw [e, e1]
          cases h1 : o.src.isStack <;> cases h2 : o.dst.isStack <;> simp_all
        · rw [e1, e']; simp
      rw [hnss]
      simp only [Bool.false_eq_true, if_false]
      by_cases hb : blocked s.block p = true
      · rw [if_pos hb]
        have inv1 : Inv K l σ0 { s with cand := some i } := ⟨inv.pend, inv.all, inv.rest, inv.block, inv.small, inv.nodup⟩
        obtain ⟨s', b, h1, h2, h3, h4⟩ := ih (i + 1) { s with cand := some i } pr inv1 (by simp only; omega)
        refine ⟨s', b, h1, h2, h3, fun hbf => ?_⟩
        obtain ⟨g1, g2, g3, g4⟩ := h4 hbf
        refine ⟨g1, g2, ?_, fun _ => ?_⟩
        · intro j q hj hq
          by_cases hji : j = i
          · subst hji
            rw [hi] at hq
            rw [← Option.some.inj hq]; exact hb
          · exact g3 j q (by omega) hq
        · by_cases hlast : i + 1 < s.pend.length
          · exact g4 hlast
          · -- the last entry: the candidate set here is kept
            have hki : s.pend.length = i + 1 := by omega
            have : pass k (i + 1) { s with cand := some i } pr = some ({ s with cand := some i }, pr) := by
              cases k with
              | zero => rfl
              | succ k =>
                rw [pass]
                have : s.pend[i + 1]? = none := List.getElem?_eq_none_iff.2 (by omega)
                simp only [this]
            rw [this] at h1
            have := (Prod.mk.inj (Option.some.inj h1)).1
            rw [← this]
            simp only [hki, Nat.add_sub_cancel]
      · rw [if_neg hb]
        have hb : blocked s.block p = false := by simpa using hb
        have inv1 := inv.step hm hi hb
        have hlen : (s.pend.eraseIdx i).length ≤ i + 1 + k := by
          have := erase_len hilen
          omega
        obtain ⟨s', b, h1, h2, h3, h4⟩ := ih (i + 1) _ true inv1 hlen
        refine ⟨s', true, by rw [h1]; simp, h2, fun _ => ?_, fun h => by cases h⟩
        have hlt := meas_erase hilen
        have hle : meas s' ≤ (s.pend.eraseIdx i).length + (s.pend.eraseIdx i).countP (fun it => !it.src.isStack) := by
          cases b with
          | true => exact Nat.le_of_lt (h3 rfl)
          | false =>
            have := (h4 rfl).1
            unfold meas
            rw [this]
            exact Nat.le_refl _
        unfold meas at hle ⊢
        omega

theorem loop_spec (hm : Mapping l) (f : Nat) (s : St) (inv : Inv K l σ0 s) (hf : meas s < f) :
    ∃ s', loop f s = some s' ∧ Inv K l σ0 s' ∧ s'.pend = [] := by
  induction f generalizing s with
  | zero => omega
  | succ f ih =>
    rw [loop]
    by_cases h : s.pend = []
    · rw [if_pos h]; exact ⟨s, rfl, inv, h⟩
    · rw [if_neg h]
      obtain ⟨s1, b, h1, inv1, h3, h4⟩ := pass_spec hm s.pend.length 0 s false inv (by omega)
      rw [h1]
      simp only [Option.bind_some, Bool.false_or]
      cases b with
      | true =>
        simp only [if_true]
        have := h3 rfl
        exact ih s1 inv1 (by omega)
      | false =>
        simp only [Bool.false_eq_true, if_false]
        obtain ⟨g1, g2, g3, g4⟩ := h4 rfl
        have hpos : 0 < s.pend.length := List.length_pos_iff.2 h
        have hlast : s.pend[s.pend.length - 1]? = some (s.pend[s.pend.length - 1]) := List.getElem?_eq_getElem (by omega)
        generalize s.pend[s.pend.length - 1] = p at hlast
        have hall : ∀ q ∈ s1.pend, blocked s1.block q = true := by
          rw [g1, g2]
          intro q hq
          obtain ⟨j, hj, e⟩ := List.getElem_of_mem hq
          exact g3 j q (by omega) (by rw [List.getElem?_eq_getElem hj, e])
        have hl1 : s1.pend[s.pend.length - 1]? = some p := by rw [g1]; exact hlast
        have hpm : p ∈ s1.pend := List.mem_of_getElem? hl1
        obtain ⟨r, hr⟩ := stuck_regs inv1 hall p hpm
        have hsp : spill s1 = some { s1 with out := s1.out ++ [.mov p.src (.stack p.home)], block := Resolve.release s1.block p.src,
                                              pend := s1.pend.set (s.pend.length - 1) { p with src := .stack p.home } } := by
          unfold spill
          rw [g4 hpos]
          simp only
          rw [hl1]
        have inv2 := inv1.spill hm hl1 (hall p hpm) hr
        rw [hsp]
        simp only [Option.bind_some]
        refine ih _ inv2 ?_
        obtain ⟨x, y, hx, hxl⟩ := split_at hl1
        have hms : meas s1 = meas s := by unfold meas; rw [g1]
        have : meas { s1 with out := s1.out ++ [.mov p.src (.stack p.home)], block := Resolve.release s1.block p.src,
                               pend := s1.pend.set (s.pend.length - 1) { p with src := .stack p.home } } < meas s1 := by
          unfold meas
          simp only
          rw [hx, ← hxl, set_split]
          simp only [List.length_append, List.length_cons, List.countP_append]
          rw [List.countP_cons_of_neg (by simp [Loc.isStack]), List.countP_cons_of_pos (by simp [hr, Loc.isStack])]
          omega
        omega

theorem resolve_ok (l : List Item) (hm : Mapping l) :
    ∃ out, resolveMappings l = some out ∧ ∀ (V : Type) (K : Nat → V) (σ : State V), Delivered K l σ (run K σ out) := by
  have key : ∀ (V : Type) (K : Nat → V) (σ : State V), ∃ out, resolveMappings l = some out ∧ Delivered K l σ (run K σ out) := by
    intro V K σ
    have inv0 : Inv K l σ ⟨l, countRegs l, none, []⟩ := by
      refine ⟨fun p hp => ⟨p, hp, rfl, rfl, rfl, .inl rfl, rfl⟩, fun o ho => .inl ⟨o, ho, rfl⟩, fun _ _ => rfl,
        fun r => countRegs_eq l r, fun r => hm.counters r, hm.distinct⟩
    obtain ⟨s', e, inv, hp⟩ := loop_spec hm (2 * l.length + 1) _ inv0 (by
      unfold meas
      have := List.countP_le_length (l := l) (p := fun it => !it.src.isStack)
      simp only
      omega)
    refine ⟨s'.out, by unfold resolveMappings; rw [e]; rfl, ?_, inv.rest⟩
    intro o ho
    rcases inv.all o ho with ⟨q, hq, _⟩ | h
    · rw [hp] at hq; cases hq
    · exact h
  obtain ⟨out, e, _⟩ := key Unit (fun _ => ()) (fun _ => ())
  refine ⟨out, e, fun V K σ => ?_⟩
  obtain ⟨out', e', h⟩ := key V K σ
  rw [e] at e'
  rw [Option.some.inj e']
  exact h

end Nature.Resolve
