import Verif.Merge.Layout
/-
C93: merging equal strings and constants of object files does not change them.

`Spec.lean` says what an entity of a section is.  After all sections have been added, laid out and
written, each entity of each section is found in the output, whole, aligned and unchanged; and what
was in the output sections before is still there.
-/
namespace Nature.Merge

theorem unit_eq (s : Sec) :
    (if s.flags.testBit 5 && s.entsize == 0 then 1 else s.entsize) = s.unit := by
  unfold Sec.unit Sec.strings
  by_cases h1 : s.flags.testBit 5 = true
  · by_cases h2 : s.entsize = 0 <;> simp [h1, h2]
  · simp [h1]

/-- What holds of the plan after these sections have been added. -/
structure Holds (secs : List (Sec × Nat)) (p : Plan) : Prop where
  len : p.inputs.length = secs.length
  pow : ∀ g ∈ p.groups, Pow g.frags
  maps : ∀ (k : Nat) (s : Sec) (o : Nat), secs[k]? = some (s, o) → ∃ (inp : Input) (g : Group),
    p.inputs[k]? = some inp ∧ p.groups[inp.group]? = some g ∧ g.output = o ∧ 0 < s.unit ∧
      ∃ l, Tiles s 0 l ∧ Maps s g.frags l inp.mappings

theorem findGroup_spec {groups gs : List Group} {s : Sec} {o i : Nat}
    (h : findGroup groups s o = (gs, i)) :
    (∃ g, gs[i]? = some g ∧ g.output = o) ∧
      (∀ (k : Nat) (x : Group), groups[k]? = some x → gs[k]? = some x) ∧
      (∀ x ∈ gs, x ∈ groups ∨ x.frags = []) := by
  unfold findGroup at h
  split at h
  · rename_i j hj
    simp only [Prod.mk.injEq] at h
    obtain ⟨rfl, rfl⟩ := h
    rw [List.findIdx?_eq_some_iff_getElem] at hj
    obtain ⟨hlt, h1, _⟩ := hj
    simp only [Bool.and_eq_true, beq_iff_eq] at h1
    exact ⟨⟨_, List.getElem?_eq_getElem hlt, h1.1.1⟩, fun _ _ h => h, fun _ h => .inl h⟩
  · simp only [Prod.mk.injEq] at h
    obtain ⟨rfl, rfl⟩ := h
    refine ⟨⟨_, by simp; rfl, rfl⟩, ?_, ?_⟩
    · intro k x hk
      rw [List.getElem?_append_left (List.getElem?_eq_some_iff.1 hk).1]
      exact hk
    · intro x hx
      simp only [List.mem_append, List.mem_singleton] at hx
      rcases hx with hx | rfl
      · exact .inl hx
      · exact .inr rfl

theorem addSection_holds {secs : List (Sec × Nat)} {p p' : Plan} {s : Sec} {o : Nat}
    (h : Holds secs p) (hal : ∃ k, s.align = 2 ^ k) (ha : addSection p s o = some p') :
    Holds (secs ++ [(s, o)]) p' := by
  unfold addSection at ha
  split at ha
  · cases ha
  simp only [unit_eq] at ha
  split at ha
  · cases ha
  rename_i hu
  split at ha
  · cases ha
  rename_i hmod
  simp only [ne_eq, Decidable.not_not] at hmod
  generalize hfg : findGroup p.groups s o = q at ha
  obtain ⟨gs, gi⟩ := q
  simp only at ha
  split at ha
  · cases ha
  rename_i es hes
  generalize hae : addEntities s.align s.data es ((gs.map (·.frags)).getD gi []) = q at ha
  obtain ⟨fs, ms⟩ := q
  simp only [Option.some.injEq] at ha
  subst ha
  obtain ⟨⟨g, hg, hgo⟩, hkeep, hnew⟩ := findGroup_spec hfg
  have hgd : (gs.map (·.frags)).getD gi [] = g.frags := by
    rw [List.getD_eq_getElem?_getD, List.getElem?_map, hg]; rfl
  rw [hgd] at hae
  have hpow : ∀ x ∈ gs, Pow x.frags := by
    intro x hx
    rcases hnew x hx with h1 | h1
    · exact h.pow x h1
    · rw [h1]; intro f hf; cases hf
  have hu' : 0 < s.unit := by omega
  obtain ⟨r1, r2, r3⟩ := addEntities_spec hal (hpow g (List.mem_iff_getElem?.2 ⟨gi, hg⟩)) hae
  have htiles := entities_spec s hu' hmod _ 0 es (Nat.zero_mod _) (fun _ => .inl rfl) hes
  refine ⟨by simp [h.len], ?_, ?_⟩
  · intro x hx
    obtain ⟨k, hk⟩ := List.mem_iff_getElem?.1 hx
    rw [List.getElem?_modify] at hk
    cases hgk : gs[k]? with
    | none => rw [hgk] at hk; simp at hk
    | some y =>
      rw [hgk] at hk
      simp only [Option.map_eq_map, Option.map_some, Option.some.injEq] at hk
      subst hk
      split
      · exact r2
      · exact hpow y (List.mem_iff_getElem?.2 ⟨k, hgk⟩)
  · intro k t u hk
    by_cases hlt : k < secs.length
    · rw [List.getElem?_append_left hlt] at hk
      obtain ⟨inp, x, e1, e2, e3, e4, l, e5, e6⟩ := h.maps k t u hk
      have e2' := hkeep _ _ e2
      by_cases hgi : gi = inp.group
      · subst hgi
        rw [hg] at e2'
        cases e2'
        refine ⟨inp, { g with frags := fs }, ?_, ?_, e3, e4, l, e5, maps_grows r1 e6⟩
        · rw [List.getElem?_append_left (by rw [h.len]; exact hlt)]; exact e1
        · rw [List.getElem?_modify]; simp [hg]
      · refine ⟨inp, x, ?_, ?_, e3, e4, l, e5, e6⟩
        · rw [List.getElem?_append_left (by rw [h.len]; exact hlt)]; exact e1
        · rw [List.getElem?_modify]; simp [hgi, e2']
    · have hkl : k = secs.length := by
        have := (List.getElem?_eq_some_iff.1 hk).1
        simp at this; omega
      subst hkl
      simp only [List.getElem?_concat_length, Option.some.injEq, Prod.mk.injEq] at hk
      obtain ⟨rfl, rfl⟩ := hk
      refine ⟨{ group := gi, mappings := ms }, { g with frags := fs }, ?_, ?_, hgo, hu', es,
        htiles, r3⟩
      · rw [← h.len]; simp
      · rw [List.getElem?_modify]; simp [hg]

theorem addAll_holds : ∀ {l secs : List (Sec × Nat)} {p p' : Plan}, Holds secs p →
    (∀ x ∈ l, ∃ k, x.1.align = 2 ^ k) → addAll l p = some p' → Holds (secs ++ l) p'
  | [], secs, p, p', h, _, ha => by
    simp only [addAll, Option.some.injEq] at ha
    subst ha
    simpa using h
  | (s, o) :: l, secs, p, p', h, hal, ha => by
    unfold addAll at ha
    split at ha
    · cases ha
    rename_i p1 h1
    have := addAll_holds (addSection_holds h (hal (s, o) (by simp)) h1)
      (fun x hx => hal x (by simp [hx])) ha
    simpa using this

/-- Every offset of a section is in one of its entities. -/
theorem C93_covered {secs : List (Sec × Nat)} {p : Plan} (hal : ∀ x ∈ secs, ∃ k, x.1.align = 2 ^ k)
    (h : addAll secs {} = some p) (s : Sec) (o : Nat) (hs : (s, o) ∈ secs) (x : Nat)
    (hx : x < s.data.length) : ∃ b n, s.Entity b n ∧ b ≤ x ∧ x < b + n := by
  have hh := addAll_holds (secs := []) ⟨rfl, by simp, by simp⟩ hal h
  obtain ⟨k, hk⟩ := List.mem_iff_getElem?.1 hs
  obtain ⟨_, _, _, _, _, _, l, ht, _⟩ := hh.maps k s o (by simpa using hk)
  exact tiles_cover ht (Nat.zero_le _) hx

/-- Each entity of each section is in the output: at a place that is aligned as its section was, in
full, byte for byte.  A reference to any of its bytes is led to that byte, and a reference to more
bytes than are left of it is refused.  What was in the output before is unchanged. -/
theorem C93_unchanged {secs : List (Sec × Nat)} {outs outs' : Nat → Output} {d d' : Data}
    {p : Plan} {ps : List Placed} (hal : ∀ x ∈ secs, ∃ k, x.1.align = 2 ^ k)
    (h : mergeAll secs outs d = some (p, ps, outs', d')) :
    (∀ (k : Nat) (s : Sec) (o : Nat), secs[k]? = some (s, o) → ∀ b n, s.Entity b n →
      ∃ pos, pos % s.align = 0 ∧ (outs o).size ≤ pos ∧ pos + n ≤ (outs' o).size ∧
        s.align ≤ (outs' o).align ∧
        ∀ i < n, s.data[b + i]? = some (d' o (pos + i)) ∧
          ∀ w, locate p ps k (b + i) w = if w ≤ n - i then some (pos + i, n - i) else none) ∧
    (∀ o x, x < (outs o).size → d' o x = d o x) := by
  unfold mergeAll at h
  split at h
  · cases h
  rename_i p1 hadd
  split at h
  · cases h
  rename_i ps1 outs1 hfin
  split at h
  · cases h
  rename_i d1 hemit
  simp only [Option.some.injEq, Prod.mk.injEq] at h
  obtain ⟨rfl, rfl, rfl, rfl⟩ := h
  have hh := addAll_holds (secs := []) ⟨rfl, by simp, by simp⟩ hal hadd
  simp only [List.nil_append] at hh
  obtain ⟨f1, f2, f3, f4, f5⟩ := finalize_spec hh.pow hfin
  obtain ⟨m1, m2⟩ := emit_spec _ _ _ hemit
  have hap := writes_apart (fun p hp => ⟨_, _, (f2 p hp).1⟩) f3
  refine ⟨?_, ?_⟩
  · intro k s o hk b n hent
    obtain ⟨inp, g, e1, e2, e3, e4, l, e5, e6⟩ := hh.maps k s o hk
    obtain ⟨i, f, i1, i2, i3, i4⟩ := mapInput_spec (fun _ => 0) e5 e6 (tiles_all e4 e5 hent (Nat.zero_le _))
    rw [← f1, List.getElem?_map] at e2
    cases hq : ps1[inp.group]? with
    | none => rw [hq] at e2; cases e2
    | some q =>
      rw [hq] at e2
      simp only [Option.map_some, Option.some.injEq] at e2
      subst e2
      have hqm : q ∈ ps1 := List.mem_iff_getElem?.2 ⟨_, hq⟩
      obtain ⟨g1, g2⟩ := f2 q hqm
      obtain ⟨i', f', j1, j2, j3, j4⟩ := mapInput_spec q.off e5 e6 (tiles_all e4 e5 hent (Nat.zero_le _))
      obtain ⟨k1, k2, k3⟩ := g1.frag i' f' j1
      have hlen : f'.bytes.length = n := by
        rw [j2]
        have := hent.inside
        simp; omega
      subst e3
      have hfp := hh.pow q.group (by rw [← f1]; exact List.mem_map.2 ⟨q, hqm, rfl⟩) f'
        (List.mem_iff_getElem?.2 ⟨_, j1⟩)
      have halS := hal (s, q.group.output) (List.mem_iff_getElem?.2 ⟨k, hk⟩)
      refine ⟨q.base + q.off i', ?_, ?_, ?_, Nat.le_trans j3 (Nat.le_trans k3 g2), ?_⟩
      · exact Nat.mod_eq_zero_of_dvd (Nat.dvd_trans (pow_dvd_of_le halS hfp j3)
          (Nat.dvd_of_mod_eq_zero k2))
      · have := g1.lo; omega
      · have := g1.hi; omega
      · intro x hx
        refine ⟨?_, ?_⟩
        · have hw : (⟨q.group.output, q.base + q.off i', f'.bytes⟩ : Write) ∈
              ps1.flatMap writesOf := List.mem_flatMap.2 ⟨q, hqm, mem_writesOf.2 ⟨i', f', j1, rfl⟩⟩
          have := m2 hap _ hw x (by simp only [hlen]; exact hx)
          simp only at this
          rw [this, j2]
          have hlt : b + x < s.data.length := by have := hent.inside; omega
          rw [List.getD_eq_getElem?_getD, List.getElem?_take_of_lt hx, List.getElem?_drop,
            List.getElem?_eq_getElem hlt]
          rfl
        · intro w
          have := j4 (b + x) (by omega) (by omega) w
          simp only [locate, e1, hq, this]
          have hsub : b + n - (b + x) = n - x := by omega
          have hsub2 : b + x - b = x := by omega
          rw [hsub, hsub2]
          by_cases hw : w ≤ n - x
          · have : ¬ w > n - x := by omega
            simp only [this, if_false, hw, if_true]
            rw [Nat.add_assoc]
          · have : w > n - x := by omega
            simp only [this, if_true, hw, if_false]
  · intro o x hx
    apply m1
    intro w hw hc
    obtain ⟨q, hq, hw⟩ := List.mem_flatMap.1 hw
    obtain ⟨i, f, hf, rfl⟩ := mem_writesOf.1 hw
    have := (f2 q hq).1.lo
    obtain ⟨h1, h2, h3⟩ := hc
    simp only at h1 h2
    subst h1
    omega

/-- A relocation against the symbol of a merged section, which computes the symbol's value plus the
addend, comes to the byte that value and addend select in the section, and to an address inside the
output section that holds that byte. -/
theorem C93_reference {secs : List (Sec × Nat)} {outs outs' : Nat → Output} {d d' : Data}
    {p : Plan} {ps : List Placed} (hal : ∀ x ∈ secs, ∃ k, x.1.align = 2 ^ k)
    (h : mergeAll secs outs d = some (p, ps, outs', d')) (k : Nat) (s : Sec) (o : Nat)
    (hk : secs[k]? = some (s, o)) (base value : Nat) (addend : Int) (t x : Nat)
    (ht : (value : Int) + addend = t) (hlt : t < s.data.length)
    (ha : adjustAddend p ps base k value addend = some x) :
    ∃ pos : Nat, (x : Int) + addend = base + pos ∧ pos < (outs' o).size ∧
      s.data[t]? = some (d' o pos) := by
  have hadd : addAll secs {} = some p := by
    unfold mergeAll at h
    split at h
    · cases h
    rename_i p1 hadd
    split at h
    · cases h
    split at h
    · cases h
    simp only [Option.some.injEq, Prod.mk.injEq] at h
    rw [← h.1]; exact hadd
  obtain ⟨b, n, hent, h1, h2⟩ := C93_covered hal hadd s o (List.mem_iff_getElem?.2 ⟨k, hk⟩) t hlt
  obtain ⟨pos, q1, q2, q3, q4, q5⟩ := (C93_unchanged hal h).1 k s o hk b n hent
  obtain ⟨r1, r2⟩ := q5 (t - b) (by omega)
  have hbt : b + (t - b) = t := by omega
  rw [hbt] at r1 r2
  refine ⟨pos + (t - b), ?_, by omega, r1⟩
  unfold adjustAddend addSigned at ha
  rw [ht] at ha
  split at ha
  · cases ha
  rename_i target htar
  split at htar
  · cases htar
  simp only [Int.toNat_natCast, Option.some.injEq] at htar
  subst htar
  rw [r2 0] at ha
  simp only [Nat.zero_le, if_true] at ha
  split at ha
  · cases ha
  rename_i desired hdes
  obtain ⟨hd1, _⟩ := mergeAdd_spec hdes
  split at ha
  · split at ha
    · cases ha
    · simp only [Option.some.injEq] at ha
      omega
  · split at ha
    · cases ha
    · simp only [Option.some.injEq] at ha
      omega

/-! ### proper sections are merged -/

theorem stringEnd_some (s : Sec) (hu : 0 < s.unit) (hl : s.data.length % s.unit = 0)
    (hn : s.nul (s.data.length - s.unit)) : ∀ (n c : Nat), c % s.unit = 0 → c < s.data.length →
    s.data.length - c ≤ n → ∃ e, stringEnd s.data s.unit n c = some e
  | 0, c, _, _, _ => by omega
  | n + 1, c, hc, hlt, hle => by
    have hbl : c + s.unit ≤ s.data.length := by
      have e1 := Nat.div_add_mod s.data.length s.unit
      have e2 := Nat.div_add_mod c s.unit
      rw [hl] at e1
      rw [hc] at e2
      have h1 : c / s.unit < s.data.length / s.unit := by
        rw [Nat.div_lt_iff_lt_mul hu, Nat.mul_comm]; omega
      have h2 := Nat.mul_le_mul_left s.unit (Nat.succ_le_of_lt h1)
      rw [Nat.succ_eq_add_one, Nat.mul_add] at h2
      omega
    unfold stringEnd
    have h1 : ¬ c > s.data.length - s.unit := by omega
    simp only [h1, if_false]
    split
    · exact ⟨_, rfl⟩
    · rename_i h2
      by_cases hend : c + s.unit = s.data.length
      · exfalso
        apply h2
        rw [nullUnit_iff s hbl]
        have : c = s.data.length - s.unit := by omega
        rw [this]; exact hn
      · exact stringEnd_some s hu hl hn n (c + s.unit) (by rw [Nat.add_mod_right]; exact hc)
          (by omega) (by omega)

theorem entities_some (s : Sec) (hp : s.Proper) : ∀ (n b : Nat), b % s.unit = 0 →
    (s.strings = true → b = 0 ∨ s.nul (b - s.unit)) → s.data.length - b ≤ n →
    ∃ l, entities s.data s.strings s.unit n b = some l
  | 0, b, _, _, h => ⟨[], by
      have : ¬ b < s.data.length := by omega
      simp only [entities, this, if_false]⟩
  | n + 1, b, hb, hn, h => by
    have hu := hp.unit
    unfold entities
    by_cases hlt : b < s.data.length
    · simp only [hlt, if_true]
      have hne : s.data ≠ [] := by intro he; rw [he] at hlt; simp at hlt
      have hle : s.unit ≤ s.data.length :=
        Nat.le_of_dvd (by omega) (Nat.dvd_of_mod_eq_zero hp.whole)
      have key : ∃ e, (if s.strings then stringEnd s.data s.unit s.data.length b
          else some (b + s.unit)) = some e ∧ b < e ∧ e % s.unit = 0 ∧ s.Entity b (e - b) ∧
          (s.strings = true → s.nul (e - s.unit)) := by
        by_cases hs : s.strings = true
        · obtain ⟨e, he⟩ := stringEnd_some s hu hp.whole (hp.ends hs hne) s.data.length b hb hlt
            (by omega)
          obtain ⟨r1, r2, r3, r4, r5, r6⟩ := stringEnd_spec s hu _ b e hb hp.whole hle he
          refine ⟨e, by simp only [hs, if_true, he], r1, r2, ⟨hb, ?_, by omega, by omega, ?_, hn, ?_, ?_⟩, fun _ => r4⟩
          · exact Nat.mod_eq_zero_of_dvd (Nat.dvd_sub (Nat.dvd_of_mod_eq_zero r2)
              (Nat.dvd_of_mod_eq_zero hb))
          · intro hf; rw [hs] at hf; cases hf
          · intro _; rw [Nat.add_sub_cancel' (by omega)]; exact r4
          · intro _ c h1 h2 h3; exact r6 c h1 (by omega) h3
        · have hs' : s.strings = false := by simpa using hs
          have hsub : b + s.unit - b = s.unit := by omega
          have hd := Nat.dvd_sub (Nat.dvd_of_mod_eq_zero hp.whole) (Nat.dvd_of_mod_eq_zero hb)
          have hle2 := Nat.le_of_dvd (by omega) hd
          refine ⟨b + s.unit, by simp [hs'], by omega, by rw [Nat.add_mod_right]; exact hb,
            ⟨hb, by rw [hsub]; exact Nat.mod_self _, by omega, by omega, fun _ => hsub, hn, ?_, ?_⟩, ?_⟩
          · intro hf; rw [hs'] at hf; cases hf
          · intro hf; rw [hs'] at hf; cases hf
          · intro hf; rw [hs'] at hf; cases hf
      obtain ⟨e, he, h1, h2, h3, h4⟩ := key
      rw [he]
      have hsm := hp.small b (e - b) h3
      have hns : ¬ e - b > 4294967295 := by omega
      obtain ⟨l, hl⟩ := entities_some s hp n e h2 (fun hs => .inr (h4 hs)) (by omega)
      simp only [hns, if_false, hl]
      exact ⟨_, rfl⟩
    · simp only [hlt, if_false]
      exact ⟨_, rfl⟩

theorem eligible_iff {s : Sec} (hu : 0 < s.unit) : eligible s = true ↔ s.Mergeable := by
  have : (s.flags.testBit 5 || s.entsize != 0) = true := by
    unfold Sec.unit Sec.strings at hu
    by_cases h1 : s.flags.testBit 5 = true
    · simp [h1]
    · simp [h1] at hu ⊢; omega
  unfold eligible SHT_PROGBITS
  rw [this]
  constructor
  · intro h
    simp only [Bool.and_eq_true, beq_iff_eq, Bool.not_eq_true', and_true] at h
    exact ⟨h.1.1.1, h.1.1.2, h.1.2, h.2⟩
  · intro h
    simp [h.flag, h.progbits, h.fixed, h.stored]

/-- Only sections that may be merged are. -/
theorem C93_only : ∀ {secs : List (Sec × Nat)} {p p' : Plan}, addAll secs p = some p' →
    ∀ x ∈ secs, x.1.Mergeable
  | [], _, _, _ => by simp
  | (s, o) :: l, p, p', h => by
    unfold addAll at h
    split at h
    · cases h
    rename_i p1 h1
    intro x hx
    simp only [List.mem_cons] at hx
    rcases hx with rfl | hx
    · unfold addSection at h1
      split at h1
      · cases h1
      rename_i he
      simp only [unit_eq] at h1
      split at h1
      · cases h1
      rename_i hu
      exact (eligible_iff (Nat.pos_of_ne_zero hu)).1 (by simpa using he)
    · exact C93_only h x hx

/-- Sections of merged constants that are as they should be are all taken, and if the output
sections stay below 2^64 bytes (`finalize` refuses otherwise) writing does not fail. -/
theorem C93_accepted (secs : List (Sec × Nat)) (outs : Nat → Output) (d : Data)
    (h : ∀ x ∈ secs, x.1.Mergeable ∧ x.1.Proper) (hsz : ∀ o, (outs o).size ≤ maxU64) :
    ∃ p, addAll secs {} = some p ∧ ((finalize p.groups outs).isSome = true →
      (mergeAll secs outs d).isSome = true) := by
  have hadd : ∀ (l : List (Sec × Nat)) (p : Plan), (∀ x ∈ l, x.1.Mergeable ∧ x.1.Proper) →
      ∃ p', addAll l p = some p' := by
    intro l
    induction l with
    | nil => intro p _; exact ⟨p, rfl⟩
    | cons x l ih =>
      intro p hx
      obtain ⟨s, o⟩ := x
      obtain ⟨he, hp⟩ := hx (s, o) (by simp)
      obtain ⟨es, hes⟩ := entities_some s hp s.data.length 0 (Nat.zero_mod _) (fun _ => .inl rfl)
        (by omega)
      have hu : 0 < s.unit := hp.unit
      have h0 : s.unit ≠ 0 := by omega
      have : ∃ p1, addSection p s o = some p1 := by
        have hes' : entities s.data (s.flags.testBit 5) s.unit s.data.length 0 = some es := hes
        have hw : s.data.length % s.unit = 0 := hp.whole
        have he' : eligible s = true := (eligible_iff hu).2 he
        rw [← Option.isSome_iff_exists]
        unfold addSection
        simp only [unit_eq]
        simp [he', h0, hw, hes']
      obtain ⟨p1, hp1⟩ := this
      obtain ⟨p', hp'⟩ := ih p1 (fun y hy => hx y (by simp [hy]))
      exact ⟨p', by simp only [addAll, hp1, hp']⟩
  obtain ⟨p, hp⟩ := hadd secs {} h
  refine ⟨p, hp, ?_⟩
  intro hf
  have hal : ∀ x ∈ secs, ∃ k, x.1.align = 2 ^ k := fun x hx => (h x hx).2.align
  have hh := addAll_holds (secs := []) ⟨rfl, by simp, by simp⟩ hal hp
  rw [Option.isSome_iff_exists] at hf
  obtain ⟨⟨ps, outs'⟩, hf⟩ := hf
  obtain ⟨f1, f2, f3, f4, f5⟩ := finalize_spec hh.pow hf
  obtain ⟨d', hd⟩ := emit_succeeds (outs := outs') (ps.flatMap writesOf) d (by
    intro w hw
    obtain ⟨q, hq, hw⟩ := List.mem_flatMap.1 hw
    obtain ⟨i, f, hf', rfl⟩ := mem_writesOf.1 hw
    have h1 := (f2 q hq).1
    have h2 := (h1.frag i f hf').1
    have h3 := h1.hi
    exact ⟨by simp only; omega, f5 hsz _⟩)
  simp [mergeAll, hp, hf, hd]

/-! ### the theorems say something -/

/-- "ab", "c" and "ab" again. -/
def sec1 : Sec := { type := 1, flags := 0x30, entsize := 1, align := 1
                    data := [97, 98, 0, 99, 0, 97, 98, 0] }
/-- "c", aligned to 4. -/
def sec2 : Sec := { type := 1, flags := 0x30, entsize := 1, align := 4, data := [99, 0] }
/-- Two constants of 4 bytes. -/
def sec3 : Sec := { type := 1, flags := 0x10, entsize := 4, align := 4
                    data := [1, 0, 0, 0, 2, 0, 0, 0] }

def exSecs : List (Sec × Nat) := [(sec1, 0), (sec2, 0), (sec3, 0)]
def exOuts : Nat → Output := fun _ => { size := 3, align := 1 }

/-- Both "c" are one, with an alignment of 4; the two "ab" are one. -/
example : ((mergeAll exSecs exOuts (fun _ _ => 255)).map fun r =>
      ((locate r.1 r.2.1 0 3 1, locate r.1 r.2.1 1 0 2, locate r.1 r.2.1 0 0 3),
        (List.range 18).map (r.2.2.2 0))) =
    some ((some (8, 2), some (8, 2), some (4, 3)),
      [255, 255, 255, 255, 97, 98, 0, 255, 99, 0, 255, 255, 1, 0, 0, 0, 2, 0]) := by
  decide +kernel

example : sec1.Entity 3 2 := by
  refine ⟨rfl, rfl, by decide, by decide, ?_, fun _ => .inr ?_, fun _ => ?_, fun _ => ?_⟩
  · intro h; exact absurd h (by decide)
  · intro i hi
    have : i = 0 := by have : sec1.unit = 1 := rfl; omega
    subst this; rfl
  · intro i hi
    have : i = 0 := by have : sec1.unit = 1 := rfl; omega
    subst this; rfl
  · intro c h1 h2 _ hn
    have : c = 3 := by have : sec1.unit = 1 := rfl; omega
    subst this
    have := hn 0 (by decide)
    exact absurd this (by decide)

end Nature.Merge
