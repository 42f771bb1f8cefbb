import Verif.Reloc.ThunkCpu
/-! Lemmas about writing thunks and patching branches. -/
namespace Nature.Reloc.Thunk

theorem splice_get {d bytes : Bytes} {o n : Nat} (hn : bytes.length = n) (h : o + n ≤ d.length) (i : Nat) :
    (d.take o ++ bytes ++ d.drop (o + n))[i]? = if o ≤ i ∧ i < o + n then bytes[i - o]? else d[i]? := by
  rw [List.append_assoc, List.getElem?_append]
  have hl : (d.take o).length = o := by rw [List.length_take]; omega
  rw [hl]
  split
  · rename_i h1
    rw [if_neg (by omega), List.getElem?_take, if_pos h1]
  · rename_i h1
    rw [List.getElem?_append, hn]
    split
    · rw [if_pos (by omega)]
    · rw [if_neg (by omega), List.getElem?_drop]
      congr 1
      omega

theorem splice_length {d bytes : Bytes} {o n : Nat} (hn : bytes.length = n) (h : o + n ≤ d.length) :
    (d.take o ++ bytes ++ d.drop (o + n)).length = d.length := by
  simp only [List.length_append, List.length_take, List.length_drop]
  omega

theorem encode_length {a t : Nat} {bytes : Bytes} (h : encode a t = some bytes) : bytes.length = 12 := by
  obtain ⟨_, _, _, _, _, _, h⟩ := encode_some h
  rw [h, List.length_append, List.length_append, len4, len4, len4]

/-- The bytes of a slot. -/
def slotBytes (inp : Input) (p : Plan) (slot : Nat × Nat) : Option Bytes :=
  ((p.groups.at_ slot.1).entries[slot.2]?).bind fun entry =>
    if !entry.used then some nops
    else (thunkAddress p.groups p.env slot.1 slot.2).bind fun a => (thunkTarget inp p.env entry.key).bind fun t => encode a t

def slotOff (p : Plan) (slot : Nat × Nat) : Nat := (p.groups.at_ slot.1).island + slot.2 * 12

theorem slotBytes_length {inp : Input} {p : Plan} {slot : Nat × Nat} {bytes : Bytes} (h : slotBytes inp p slot = some bytes) :
    bytes.length = 12 := by
  unfold slotBytes at h
  simp only [Option.bind_eq_some_iff] at h
  obtain ⟨entry, _, h⟩ := h
  split at h
  · have := Option.some.inj h
    subst this
    rfl
  · simp only [Option.bind_eq_some_iff] at h
    obtain ⟨a, _, t, _, h⟩ := h
    exact encode_length h

theorem emitStep_some {inp : Input} {p : Plan} {slot : Nat × Nat} {d d' : Bytes} (h : emitStep inp p slot d = some d') :
    ∃ bytes, slotBytes inp p slot = some bytes ∧ slotOff p slot + 12 ≤ p.lay.size ∧
      d' = d.take (slotOff p slot) ++ bytes ++ d.drop (slotOff p slot + 12) := by
  unfold emitStep at h
  simp only [Option.bind_eq_some_iff] at h
  obtain ⟨o, ho, h⟩ := h
  have ho := addOverflow_some ho
  split at h
  · cases h
  · rename_i hb
    split at h
    · cases h
    · rename_i entry he
      simp only [Option.bind_eq_some_iff] at h
      obtain ⟨bytes, h1, h2⟩ := h
      have hs : slotBytes inp p slot = some bytes := by
        unfold slotBytes
        rw [he]
        exact h1
      simp only [thunkSize] at hb ho h2
      refine ⟨bytes, hs, ?_, ?_⟩
      · unfold slotOff; omega
      · unfold slotOff
        rw [← ho]
        exact (Option.some.inj h2).symm

/-- Distinct slots do not overlap. -/
theorem slot_apart {inp : Input} {p : Plan} (ok : PlanOk inp p) {s s' : Nat × Nat} (h1 : s.1 < p.groups.count) (h2 : s'.1 < p.groups.count)
    (h3 : s.2 < (p.groups.at_ s.1).entries.length) (h4 : s'.2 < (p.groups.at_ s'.1).entries.length) (hne : s ≠ s') :
    slotOff p s + 12 ≤ slotOff p s' ∨ slotOff p s' + 12 ≤ slotOff p s := by
  unfold slotOff
  by_cases hg : s.1 = s'.1
  · have hne' : s.2 ≠ s'.2 := fun h => hne (Prod.ext hg h)
    rw [← hg]
    omega
  · have := ok.laid.apart (.isl s.1) (.isl s'.1) ⟨h1, Nat.zero_le _⟩ ⟨h2, Nat.zero_le _⟩ (fun h => hg (Region.isl.inj h))
    simp only [Region.lo, Region.size] at this
    omega

theorem slot_sec {inp : Input} {p : Plan} (ok : PlanOk inp p) {s : Nat × Nat} (h1 : s.1 < p.groups.count)
    (h3 : s.2 < (p.groups.at_ s.1).entries.length) {j : Nat} {q : Placement} (hq : inp.placements[j]? = some q) (ht : q.text = true) :
    slotOff p s + 12 ≤ p.lay.offset j ∨ p.lay.offset j + q.size ≤ slotOff p s := by
  have := ok.laid.apart (.isl s.1) (.sec j) ⟨h1, Nat.zero_le _⟩ ⟨Nat.zero_le _, q, hq, ht⟩ (by intro h; cases h)
  simp only [Region.lo, Region.size, hq, Option.map_some, Option.getD_some] at this
  unfold slotOff
  omega

theorem mem_slots {p : Plan} {s : Nat × Nat} : s ∈ slots p ↔ s.1 < p.groups.count ∧ s.2 < (p.groups.at_ s.1).entries.length := by
  unfold slots
  simp only [List.mem_flatMap, List.mem_range, List.mem_map]
  constructor
  · rintro ⟨g, h1, e, h2, rfl⟩
    exact ⟨h1, h2⟩
  · rintro ⟨h1, h2⟩
    exact ⟨s.1, h1, s.2, h2, rfl⟩

/-- A slot shows its bytes. -/
def Shown (inp : Input) (p : Plan) (d : Bytes) (s : Nat × Nat) : Prop :=
  ∃ bytes, slotBytes inp p s = some bytes ∧ slotOff p s + 12 ≤ p.lay.size ∧ Holds d (slotOff p s) bytes

theorem emit_loop {inp : Input} {p : Plan} (ok : PlanOk inp p) : ∀ (l : List (Nat × Nat)) (d d' : Bytes), (∀ s ∈ l, s ∈ slots p) →
    d.length = p.lay.size → l.foldlM (fun d s => emitStep inp p s d) d = some d' →
    d'.length = d.length ∧ (∀ s, s ∈ slots p → Shown inp p d s ∨ s ∈ l → Shown inp p d' s) ∧
      (∀ i, (∀ s ∈ l, i < slotOff p s ∨ slotOff p s + 12 ≤ i) → d'[i]? = d[i]?) := by
  intro l
  induction l with
  | nil =>
    intro d d' _ _ h
    simp only [List.foldlM_nil, Option.pure_def, Option.some.injEq] at h
    subst h
    exact ⟨rfl, fun s _ h => by simpa using h, fun _ _ => rfl⟩
  | cons x l ih =>
    intro d d' hl hd h
    simp only [List.foldlM_cons, Option.bind_eq_bind, Option.bind_eq_some_iff] at h
    obtain ⟨d1, h1, h2⟩ := h
    obtain ⟨bytes, hb, hsz, rfl⟩ := emitStep_some h1
    have hlen := slotBytes_length hb
    have hfit : slotOff p x + 12 ≤ d.length := by omega
    have hget := splice_get hlen hfit
    have hl1 := splice_length hlen hfit
    obtain ⟨i1, i2, i3⟩ := ih _ d' (fun s hs => hl s (List.mem_cons_of_mem _ hs)) (hl1.trans hd) h2
    have own : Shown inp p (d.take (slotOff p x) ++ bytes ++ d.drop (slotOff p x + 12)) x := by
      refine ⟨bytes, hb, hsz, ?_⟩
      intro j hj
      rw [hget, if_pos (by omega)]
      congr 1
      omega
    refine ⟨i1.trans hl1, ?_, ?_⟩
    · intro s hs h
      by_cases hsx : s = x
      · subst hsx
        exact i2 s hs (.inl own)
      · rcases h with h | h
        · refine i2 s hs (.inl ?_)
          obtain ⟨b', e1, e2, e3⟩ := h
          refine ⟨b', e1, e2, ?_⟩
          intro j hj
          have := slotBytes_length e1
          obtain ⟨m1, m2⟩ := mem_slots.mp hs
          obtain ⟨m3, m4⟩ := mem_slots.mp (hl x List.mem_cons_self)
          have := slot_apart ok m1 m3 m2 m4 hsx
          rw [hget, if_neg (by omega)]
          exact e3 j hj
        · rcases List.mem_cons.mp h with h | h
          · exact absurd h hsx
          · exact i2 s hs (.inr h)
    · intro i hi
      rw [i3 i (fun s hs => hi s (List.mem_cons_of_mem _ hs)), hget, if_neg]
      have := hi x List.mem_cons_self
      omega

/-! ### Patching -/

/-- Where a branch stands in the code. -/
def brOff (p : Plan) (b : Branch) : Nat := p.lay.offset b.placement + b.offset

/-- The branch is in the code section. -/
def InText (inp : Input) (b : Branch) : Prop := ∃ q, inp.placements[b.placement]? = some q ∧ q.text = true

/-- What patching a branch does. -/
structure Patched (inp : Input) (p : Plan) (k : Nat) (b : Branch) (d d' : Bytes) : Prop where
  length : d'.length = d.length
  outside : ∀ i, i < brOff p b ∨ brOff p b + 4 ≤ i → d'[i]? = d[i]?
  op : (insn (d'.drop (brOff p b))).extractLsb' 26 6 = (insn (d.drop (brOff p b))).extractLsb' 26 6
  goes : ∃ s target, symbolValue inp p.env b.object b.symbol = some s ∧ addSigned s b.addend = some target ∧
    ∃ goal : Nat, ((insn (d'.drop (brOff p b))).extractLsb' 0 26).toInt * 4 = (goal : Int) - (p.env.text + brOff p b : Nat) ∧
      ((branch26Fits target (p.env.text + brOff p b) = true ∧ goal = target) ∨
       (branch26Fits target (p.env.text + brOff p b) = false ∧ ∃ g i, p.groups.of b.placement = some g ∧ p.index k = some i ∧
         thunkAddress p.groups p.env g i = some goal))

theorem patch_get {d new : Bytes} {o : Nat} (ho : o + 4 ≤ d.length) (hl : new.length = (d.drop o).length) (hd : new.drop 4 = (d.drop o).drop 4) :
    (d.take o ++ new).length = d.length ∧ (∀ i, i < o ∨ o + 4 ≤ i → (d.take o ++ new)[i]? = d[i]?) ∧ (d.take o ++ new).drop o = new := by
  have h1 : (d.take o).length = o := by rw [List.length_take]; omega
  rw [List.length_drop] at hl
  refine ⟨?_, ?_, ?_⟩
  · rw [List.length_append, h1, hl]; omega
  · intro i hi
    rw [List.getElem?_append, h1]
    split
    · rename_i h
      rw [List.getElem?_take, if_pos h]
    · rename_i h
      have := congrArg (fun l => l[i - o - 4]?) hd
      simp only [List.getElem?_drop] at this
      rw [show 4 + (i - o - 4) = i - o from by omega, show o + (i - o) = i from by omega] at this
      exact this
  · exact List.drop_left' h1

theorem applied_branch {ty : Nat} {v : Vals} {A : Int} {l new : Bytes} (hty : ty = 282 ∨ ty = 283) (wv : v.Wide) (wA : Wide A)
    (h : Arm.apply ty v A l = some new) :
    ((insn new).extractLsb' 0 26).toInt * 4 = v.S + A - v.P ∧ new.length = l.length ∧ new.drop 4 = l.drop 4 ∧
      (insn new).extractLsb' 26 6 = (insn l).extractLsb' 26 6 := by
  rcases hty with rfl | rfl
  · obtain ⟨_, _, h1, h2, h3, h4⟩ := Arm.C96_applied_partial ⟨v, A, l, wv, wA⟩ .jump26 new h (by simp)
    exact ⟨h1, h2, h3, h4⟩
  · obtain ⟨_, _, h1, h2, h3, h4⟩ := Arm.C96_applied_partial ⟨v, A, l, wv, wA⟩ .call26 new h (by simp)
    exact ⟨h1, h2, h3, h4⟩

/-- The input is made of 64-bit numbers, and the relocations are branches. -/
structure Sound (inp : Input) : Prop where
  env : ∀ lay e, inp.outputs lay = some e → e.text + lay.size ≤ 2 ^ 64 ∧ (∀ g v, e.global g = some v → v < 2 ^ 64) ∧
    ∀ o s v, e.local_ o s = some v → v < 2 ^ 64
  branch : ∀ b ∈ inp.branches, (b.type = 282 ∨ b.type = 283) ∧ Wide b.addend

theorem symbolValue_lt {inp : Input} (hs : Sound inp) {lay : Lay} {e : Env} (he : inp.outputs lay = some e) {o s v : Nat}
    (h : symbolValue inp e o s = some v) : v < 2 ^ 64 := by
  obtain ⟨_, h1, h2⟩ := hs.env lay e he
  unfold symbolValue at h
  split at h
  · exact h1 _ _ h
  · exact h2 _ _ _ h

theorem brOff_in {inp : Input} {p : Plan} (ok : PlanOk inp p) {b : Branch} {q : Placement} (hq : inp.placements[b.placement]? = some q)
    (ht : q.text = true) (hsz : b.offset + 4 ≤ q.size) : brOff p b + 4 ≤ p.lay.size := by
  have := (ok.laid.in_ (.sec b.placement) ⟨Nat.zero_le _, q, hq, ht⟩).2
  simp only [Region.lo, Region.size, hq, Option.map_some, Option.getD_some] at this
  unfold brOff
  omega

theorem applyStep_out {inp : Input} {p : Plan} (ok : PlanOk inp p) (hs : Sound inp) {k : Nat} {b : Branch} {d d' : Bytes}
    (hb : b ∈ inp.branches) (hd : d.length = p.lay.size) (ht : InText inp b) (h : applyStep inp p k b d = some d') :
    Patched inp p k b d d' ∧ ∃ q, inp.placements[b.placement]? = some q ∧ b.offset + 4 ≤ q.size := by
  obtain ⟨q, hq, hqt⟩ := ht
  unfold applyStep at h
  rw [hq] at h
  simp only [hqt, Bool.not_true, Bool.false_eq_true, if_false] at h
  split at h
  · cases h
  · rename_i hsz
    have hsz : b.offset + 4 ≤ q.size := by omega
    have hin := brOff_in ok hq hqt hsz
    obtain ⟨hty, hA⟩ := hs.branch b hb
    obtain ⟨htext, _⟩ := hs.env _ _ ok.env
    simp only [Option.bind_eq_some_iff] at h
    obtain ⟨o, ho, h⟩ := h
    have ho : o = brOff p b := addOverflow_some ho
    subst ho
    split at h
    · cases h
    · rw [Nat.mod_eq_of_lt (show p.env.text + brOff p b < 2 ^ 64 from by omega)] at h
      simp only [Option.bind_eq_some_iff] at h
      obtain ⟨s, hsv, target, htg, new, hnew, h⟩ := h
      have := Option.some.inj h
      subst this
      have hslt := symbolValue_lt hs ok.env hsv
      have wide : ∀ v, v < 2 ^ 64 → (⟨p.env.text + brOff p b, v, 0, 0, 0, 0, 0, 0⟩ : Vals).Wide := by
        intro v hv
        constructor <;> simp only <;> omega
      have fin : ∀ (v : Nat) (A : Int), v < 2 ^ 64 → Wide A → Arm.apply b.type ⟨p.env.text + brOff p b, v, 0, 0, 0, 0, 0, 0⟩ A (d.drop (brOff p b)) = some new →
          (d.take (brOff p b) ++ new).length = d.length ∧ (∀ i, i < brOff p b ∨ brOff p b + 4 ≤ i → (d.take (brOff p b) ++ new)[i]? = d[i]?) ∧
          (insn ((d.take (brOff p b) ++ new).drop (brOff p b))).extractLsb' 26 6 = (insn (d.drop (brOff p b))).extractLsb' 26 6 ∧
          ((insn ((d.take (brOff p b) ++ new).drop (brOff p b))).extractLsb' 0 26).toInt * 4 = v + A - (p.env.text + brOff p b : Nat) := by
        intro v A hv hA h
        obtain ⟨a1, a2, a3, a4⟩ := applied_branch hty (wide v hv) hA h
        obtain ⟨b1, b2, b3⟩ := patch_get (by omega) a2 a3
        rw [b3]
        exact ⟨b1, b2, a4, a1⟩
      refine ⟨?_, q, hq, hsz⟩
      split at hnew
      · rename_i hf
        have hf : branch26Fits target (p.env.text + brOff p b) = false := by simpa using hf
        split at hnew
        · rename_i g i hg hi
          split at hnew
          · cases hnew
          · simp only [Option.bind_eq_some_iff] at hnew
            obtain ⟨a, ha, hnew⟩ := hnew
            have halt : a < 2 ^ 64 := by
              unfold thunkAddress at ha
              split at ha
              · cases ha
              · split at ha
                · cases ha
                · rename_i hgc hic
                  simp only [Option.bind_eq_some_iff] at ha
                  obtain ⟨o', ho', ha⟩ := ha
                  have e1 := addOverflow_some ho'
                  have e2 := addOverflow_some ha
                  have := (ok.laid.in_ (.isl g) ⟨by omega, Nat.zero_le _⟩).2
                  simp only [Region.lo, Region.size] at this
                  simp only [thunkSize] at e1
                  omega
            obtain ⟨c1, c2, c3, c4⟩ := fin a 0 halt (by constructor <;> decide) hnew
            exact ⟨c1, c2, c3, s, target, hsv, htg, a, by rw [c4]; omega, .inr ⟨hf, g, i, hg, hi, ha⟩⟩
        · cases hnew
      · rename_i hf
        have hf : branch26Fits target (p.env.text + brOff p b) = true := by simpa using hf
        obtain ⟨c1, c2, c3, c4⟩ := fin s b.addend hslt hA hnew
        have := addSigned_some htg
        exact ⟨c1, c2, c3, s, target, hsv, htg, target, by rw [c4]; omega, .inl ⟨hf, rfl⟩⟩

theorem applyStep_other {inp : Input} {p : Plan} {k : Nat} {b : Branch} {d d' : Bytes} (ht : ¬ InText inp b)
    (h : applyStep inp p k b d = some d') : d' = d := by
  unfold applyStep at h
  split at h
  · cases h
  · rename_i q hq
    split at h
    · exact (Option.some.inj h).symm
    · rename_i hqt
      exact absurd ⟨q, hq, by simpa using hqt⟩ ht

/-- Two branches at least one instruction apart. -/
def Apart (p : Plan) (b b' : Branch) : Prop := brOff p b + 4 ≤ brOff p b' ∨ brOff p b' + 4 ≤ brOff p b

theorem apply_loop {inp : Input} {p : Plan} (ok : PlanOk inp p) (hs : Sound inp) : ∀ (bs : List Branch) (k : Nat) (d d' : Bytes),
    (∀ b ∈ bs, b ∈ inp.branches) → d.length = p.lay.size → applyLoop inp p k bs d = some d' →
    d'.length = d.length ∧
    (∀ i, (∀ b ∈ bs, InText inp b → i < brOff p b ∨ brOff p b + 4 ≤ i) → d'[i]? = d[i]?) ∧
    (∀ j b, bs[j]? = some b → InText inp b → (∃ q, inp.placements[b.placement]? = some q ∧ b.offset + 4 ≤ q.size) ∧
      ((∀ j' b', j' ≠ j → bs[j']? = some b' → InText inp b' → Apart p b b') →
        ∃ x x', Patched inp p (k + j) b x x' ∧ (∀ i, i < 4 → x[brOff p b + i]? = d[brOff p b + i]? ∧ d'[brOff p b + i]? = x'[brOff p b + i]?))) := by
  intro bs
  induction bs with
  | nil =>
    intro k d d' _ _ h
    simp only [applyLoop, Option.some.injEq] at h
    subst h
    exact ⟨rfl, fun _ _ => rfl, by simp⟩
  | cons b bs ih =>
    intro k d d' hbs hd h
    simp only [applyLoop, Option.bind_eq_some_iff] at h
    obtain ⟨d1, h1, h2⟩ := h
    have hlen1 : d1.length = d.length := by
      by_cases ht : InText inp b
      · exact (applyStep_out ok hs (hbs b List.mem_cons_self) hd ht h1).1.length
      · rw [applyStep_other ht h1]
    have hout1 : ∀ i, (InText inp b → i < brOff p b ∨ brOff p b + 4 ≤ i) → d1[i]? = d[i]? := by
      intro i hi
      by_cases ht : InText inp b
      · exact (applyStep_out ok hs (hbs b List.mem_cons_self) hd ht h1).1.outside i (hi ht)
      · rw [applyStep_other ht h1]
    obtain ⟨i1, i2, i3⟩ := ih (k + 1) d1 d' (fun b hb => hbs b (List.mem_cons_of_mem _ hb)) (hlen1.trans hd) h2
    refine ⟨i1.trans hlen1, ?_, ?_⟩
    · intro i hi
      rw [i2 i (fun b hb => hi b (List.mem_cons_of_mem _ hb)), hout1 i (hi b List.mem_cons_self)]
    · intro j b' hj ht
      cases j with
      | zero =>
        simp only [List.getElem?_cons_zero, Option.some.injEq] at hj
        subst hj
        obtain ⟨pt, q, hq, hsz⟩ := applyStep_out ok hs (hbs b List.mem_cons_self) hd ht h1
        refine ⟨⟨q, hq, hsz⟩, ?_⟩
        intro hap
        refine ⟨d, d1, pt, ?_⟩
        intro i hi
        refine ⟨rfl, i2 _ ?_⟩
        intro b2 hb2 ht2
        obtain ⟨j2, hj2, rfl⟩ := List.mem_iff_getElem.mp hb2
        have := hap (j2 + 1) bs[j2] (by omega) (by simp [hj2]) ht2
        unfold Apart at this
        omega
      | succ j =>
        simp only [List.getElem?_cons_succ] at hj
        obtain ⟨e1, e2⟩ := i3 j b' hj ht
        refine ⟨e1, ?_⟩
        intro hap
        obtain ⟨x, x', e3, e4⟩ := e2 (fun j' b2 hne hj2 ht2 => hap (j' + 1) b2 (by omega) (by simpa using hj2) ht2)
        refine ⟨x, x', by rw [show k + (j + 1) = k + 1 + j from by omega]; exact e3, ?_⟩
        intro i hi
        refine ⟨?_, (e4 i hi).2⟩
        rw [(e4 i hi).1]
        apply hout1
        intro htb
        have := hap 0 b (by omega) rfl htb
        unfold Apart at this
        omega

end Nature.Reloc.Thunk
