import Verif.Merge.Model
/-
Lemmas about merging.
-/
namespace Nature.Merge

/-! ### entities -/

theorem nullUnit_iff (s : Sec) {c : Nat} (hc : c + s.unit ≤ s.data.length) :
    nullUnit s.data c s.unit = true ↔ s.nul c := by
  unfold nullUnit Sec.nul
  rw [List.all_eq_true]
  constructor
  · intro h i hi
    have h1 := h i (List.mem_range.2 hi)
    have hl : c + i < s.data.length := by omega
    rw [List.getD_eq_getElem?_getD, List.getElem?_eq_getElem hl] at h1
    rw [List.getElem?_eq_getElem hl]
    simpa using h1
  · intro h i hi
    have h1 := h i (List.mem_range.1 hi)
    rw [List.getD_eq_getElem?_getD, h1]
    rfl

/-- What the inner loop finds is the end of the string. -/
theorem stringEnd_spec (s : Sec) (hu : 0 < s.unit) : ∀ (n cursor e : Nat), cursor % s.unit = 0 →
    s.data.length % s.unit = 0 → s.unit ≤ s.data.length →
    stringEnd s.data s.unit n cursor = some e →
    cursor < e ∧ e % s.unit = 0 ∧ e ≤ s.data.length ∧ s.nul (e - s.unit) ∧ s.unit ≤ e - cursor ∧
      ∀ c, cursor ≤ c → c + s.unit < e → c % s.unit = 0 → ¬ s.nul c
  | 0, _, _, _, _, _, h => by simp [stringEnd] at h
  | n + 1, cursor, e, hc, hl, hle, h => by
    unfold stringEnd at h
    split at h
    · cases h
    rename_i h1
    split at h
    · rename_i h2
      simp only [Option.some.injEq] at h
      subst h
      rw [nullUnit_iff s (by omega)] at h2
      refine ⟨by omega, ?_, by omega, ?_, by omega, ?_⟩
      · rw [Nat.add_mod_right]; exact hc
      · rw [Nat.add_sub_cancel]; exact h2
      · intro c h3 h4; omega
    · rename_i h2
      have h2' : ¬ s.nul cursor := by
        rw [← nullUnit_iff s (by omega)]; exact h2
      obtain ⟨r1, r2, r3, r4, r5, r6⟩ := stringEnd_spec s hu n (cursor + s.unit) e
        (by rw [Nat.add_mod_right]; exact hc) hl hle h
      refine ⟨by omega, r2, r3, r4, by omega, ?_⟩
      intro c h3 h4 h5 h6
      by_cases hcc : cursor + s.unit ≤ c
      · exact r6 c hcc h4 h5 h6
      · have : c = cursor := by
          have e1 := Nat.div_add_mod c s.unit
          have e2 := Nat.div_add_mod cursor s.unit
          rw [h5] at e1
          rw [hc] at e2
          have hle1 : cursor / s.unit ≤ c / s.unit := Nat.div_le_div_right h3
          have hlt : c / s.unit < cursor / s.unit + 1 := by
            rw [Nat.div_lt_iff_lt_mul hu, Nat.add_mul, Nat.one_mul, Nat.mul_comm]
            omega
          have heq : c / s.unit = cursor / s.unit := by omega
          rw [heq] at e1
          omega
        subst this
        exact h2' h6

/-- Entities one after the other, from an offset to the end. -/
def Tiles (s : Sec) : Nat → List (Nat × Nat) → Prop
  | b, [] => s.data.length ≤ b
  | b, (c, n) :: l => b = c ∧ s.Entity c n ∧ n ≤ 4294967295 ∧ Tiles s (c + n) l

theorem entities_spec (s : Sec) (hu : 0 < s.unit) (hl : s.data.length % s.unit = 0) :
    ∀ (n b : Nat) (l : List (Nat × Nat)), b % s.unit = 0 →
    (s.strings = true → b = 0 ∨ s.nul (b - s.unit)) →
    entities s.data s.strings s.unit n b = some l → Tiles s b l
  | 0, b, l, _, _, h => by
    unfold entities at h
    split at h
    · cases h
    · simp only [Option.some.injEq] at h
      subst h
      simp only [Tiles]; omega
  | n + 1, b, l, hb, hn, h => by
    unfold entities at h
    split at h
    · rename_i hlt
      have hle : s.unit ≤ s.data.length := by
        have e1 := Nat.div_add_mod s.data.length s.unit
        rw [hl] at e1
        rcases Nat.eq_zero_or_pos (s.data.length / s.unit) with h0 | h0
        · rw [h0] at e1; omega
        · have := Nat.mul_le_mul_left s.unit h0
          omega
      have hbl : b + s.unit ≤ s.data.length := by
        have e1 := Nat.div_add_mod s.data.length s.unit
        have e2 := Nat.div_add_mod b s.unit
        rw [hl] at e1
        rw [hb] at e2
        have h1 : b / s.unit < s.data.length / s.unit := by
          rw [Nat.div_lt_iff_lt_mul hu, Nat.mul_comm]; omega
        have h2 := Nat.mul_le_mul_left s.unit (Nat.succ_le_of_lt h1)
        rw [Nat.succ_eq_add_one, Nat.mul_add] at h2
        omega
      split at h
      · cases h
      rename_i e he
      split at h
      · cases h
      rename_i hsmall
      split at h
      · cases h
      rename_i l' hrec
      simp only [Option.some.injEq] at h
      subst h
      have hent : s.Entity b (e - b) ∧ b < e ∧ e % s.unit = 0 ∧
          (s.strings = true → s.nul (e - s.unit)) := by
        by_cases hs : s.strings = true
        · simp only [hs, if_true] at he
          obtain ⟨r1, r2, r3, r4, r5, r6⟩ := stringEnd_spec s hu _ b e hb hl hle he
          refine ⟨⟨hb, ?_, by omega, by omega, ?_, hn, ?_, ?_⟩, r1, r2, fun _ => r4⟩
          · have : (b + (e - b)) % s.unit = 0 := by
              rw [Nat.add_sub_cancel' (by omega)]; exact r2
            rw [Nat.add_mod, hb, Nat.zero_add, Nat.mod_mod] at this
            exact this
          · intro hf; rw [hs] at hf; cases hf
          · intro _
            rw [Nat.add_sub_cancel' (by omega)]; exact r4
          · intro _ c h1 h2 h3
            exact r6 c h1 (by omega) h3
        · have hs' : s.strings = false := by simpa using hs
          simp only [hs', Bool.false_eq_true, if_false, Option.some.injEq] at he
          subst he
          have hsub : b + s.unit - b = s.unit := by omega
          refine ⟨⟨hb, by rw [hsub]; exact Nat.mod_self _, by omega, by omega, fun _ => hsub,
            hn, ?_, ?_⟩, by omega, by rw [Nat.add_mod_right]; exact hb, ?_⟩
          · intro hf; rw [hs'] at hf; cases hf
          · intro hf; rw [hs'] at hf; cases hf
          · intro hf; rw [hs'] at hf; cases hf
      obtain ⟨h1, h2, h3, h4⟩ := hent
      refine ⟨rfl, h1, by omega, ?_⟩
      have : b + (e - b) = e := by omega
      rw [this]
      exact entities_spec s hu hl n e l' h3 (fun hs => .inr (h4 hs)) hrec
    · rename_i hge
      simp only [Option.some.injEq] at h
      subst h
      simp only [Tiles]; omega

/-- Two entities that begin at one offset are one. -/
theorem entity_unique {s : Sec} {b n m : Nat} (h1 : s.Entity b n) (h2 : s.Entity b m) :
    n = m := by
  have main : ∀ {n m}, s.Entity b n → s.Entity b m → ¬ n < m := by
    intro n m h1 h2 hlt
    have hu : 0 < s.unit := by
      rcases Nat.eq_zero_or_pos s.unit with h | h
      · have := h1.whole; rw [h, Nat.mod_zero] at this; have := h1.some; omega
      · exact h
    by_cases hs : s.strings = true
    · have hn : s.unit ≤ n := Nat.le_of_dvd h1.some (Nat.dvd_of_mod_eq_zero h1.whole)
      refine h2.first hs (b + n - s.unit) (by omega) (by omega) ?_ (h1.ends hs)
      have hd : s.unit ∣ b + n - s.unit :=
        Nat.dvd_sub (Nat.dvd_add (Nat.dvd_of_mod_eq_zero h1.begins)
          (Nat.dvd_of_mod_eq_zero h1.whole)) (Nat.dvd_refl _)
      exact Nat.mod_eq_zero_of_dvd hd
    · have hs' : s.strings = false := by simpa using hs
      have := h1.constant hs'
      have := h2.constant hs'
      omega
  have a := main h1 h2
  have b := main h2 h1
  omega

/-- Every entity is one of the tiles. -/
theorem tiles_all {s : Sec} (hu : 0 < s.unit) : ∀ {l : List (Nat × Nat)} {b0 : Nat}, Tiles s b0 l →
    ∀ {b n}, s.Entity b n → b0 ≤ b → (b, n) ∈ l
  | [], b0, h, b, n, he, hb => by
    have := he.inside
    have := he.some
    simp only [Tiles] at h
    omega
  | (c, m) :: l, b0, h, b, n, he, hb => by
    obtain ⟨rfl, h1, _, h3⟩ := h
    by_cases hbc : b = b0
    · subst hbc
      rw [entity_unique he h1]
      simp
    · by_cases hlt : b0 + m ≤ b
      · exact List.mem_cons_of_mem _ (tiles_all hu h3 he hlt)
      · exfalso
        by_cases hs : s.strings = true
        · rcases he.after hs with h | h
          · omega
          · have hbu : s.unit ≤ b := Nat.le_of_dvd (by omega) (Nat.dvd_of_mod_eq_zero he.begins)
            have hge : b0 ≤ b - s.unit := by
              -- multiples of the unit
              have e1 := Nat.div_add_mod b s.unit
              have e2 := Nat.div_add_mod b0 s.unit
              rw [he.begins] at e1
              rw [h1.begins] at e2
              have hlt2 : b0 / s.unit < b / s.unit := by
                rw [Nat.div_lt_iff_lt_mul hu, Nat.mul_comm]; omega
              have h2 := Nat.mul_le_mul_left s.unit (Nat.succ_le_of_lt hlt2)
              rw [Nat.succ_eq_add_one, Nat.mul_add] at h2
              omega
            refine h1.first hs (b - s.unit) hge (by omega) ?_ h
            exact Nat.mod_eq_zero_of_dvd
              (Nat.dvd_sub (Nat.dvd_of_mod_eq_zero he.begins) (Nat.dvd_refl _))
        · have hs' : s.strings = false := by simpa using hs
          have h4 := h1.constant hs'
          have e1 := Nat.div_add_mod b s.unit
          have e2 := Nat.div_add_mod b0 s.unit
          rw [he.begins] at e1
          rw [h1.begins] at e2
          have hlt2 : b0 / s.unit < b / s.unit := by
            rw [Nat.div_lt_iff_lt_mul hu, Nat.mul_comm]; omega
          have h2 := Nat.mul_le_mul_left s.unit (Nat.succ_le_of_lt hlt2)
          rw [Nat.succ_eq_add_one, Nat.mul_add] at h2
          omega

/-- Every offset is in a tile. -/
theorem tiles_cover {s : Sec} : ∀ {l : List (Nat × Nat)} {b0 : Nat}, Tiles s b0 l →
    ∀ {x}, b0 ≤ x → x < s.data.length → ∃ b n, s.Entity b n ∧ b ≤ x ∧ x < b + n
  | [], b0, h, x, hb, hx => by simp only [Tiles] at h; omega
  | (c, m) :: l, b0, h, x, hb, hx => by
    obtain ⟨rfl, h1, _, h3⟩ := h
    by_cases hlt : x < b0 + m
    · exact ⟨b0, m, h1, hb, hlt⟩
    · exact tiles_cover h3 (by omega) hx

/-! ### fragments -/

/-- Fragments only get more, and more aligned. -/
def Grows (fs gs : List Frag) : Prop :=
  ∀ (i : Nat) (f : Frag), fs[i]? = some f → ∃ g : Frag, gs[i]? = some g ∧ g.bytes = f.bytes ∧ f.align ≤ g.align

theorem grows_refl (fs : List Frag) : Grows fs fs := fun _ f h => ⟨f, h, rfl, Nat.le_refl _⟩

theorem grows_trans {a b c : List Frag} (h1 : Grows a b) (h2 : Grows b c) : Grows a c := by
  intro i f hf
  obtain ⟨g, hg, e1, e2⟩ := h1 i f hf
  obtain ⟨k, hk, e3, e4⟩ := h2 i g hg
  exact ⟨k, hk, e3.trans e1, Nat.le_trans e2 e4⟩

/-- Alignments are powers of two. -/
def Pow (fs : List Frag) : Prop := ∀ f ∈ fs, ∃ k, f.align = 2 ^ k

theorem findIdx?_bytes {fs : List Frag} {bytes : List UInt8} {i : Nat}
    (h : fs.findIdx? (fun f => f.bytes == bytes) = some i) :
    ∃ f, fs[i]? = some f ∧ f.bytes = bytes := by
  rw [List.findIdx?_eq_some_iff_getElem] at h
  obtain ⟨hi, h1, _⟩ := h
  exact ⟨fs[i], List.getElem?_eq_getElem hi, by simpa using h1⟩

theorem addEntity_spec {fs fs' : List Frag} {align i : Nat} {bytes : List UInt8}
    (hal : ∃ k, align = 2 ^ k) (hp : Pow fs) (h : addEntity fs align bytes = (fs', i)) :
    Grows fs fs' ∧ Pow fs' ∧ ∃ f, fs'[i]? = some f ∧ f.bytes = bytes ∧ align ≤ f.align := by
  unfold addEntity at h
  split at h
  · have h0 : align ≠ 0 := by
      obtain ⟨k, rfl⟩ := hal
      exact Nat.ne_of_gt (Nat.pow_pos (by decide))
    simp only [ne_eq, h0, not_false_eq_true, if_true, Prod.mk.injEq] at h
    obtain ⟨rfl, rfl⟩ := h
    refine ⟨?_, ?_, _, by simp; rfl, rfl, Nat.le_refl _⟩
    · intro j f hj
      have hlt : j < fs.length := (List.getElem?_eq_some_iff.1 hj).1
      refine ⟨f, ?_, rfl, Nat.le_refl _⟩
      rw [List.getElem?_append_left hlt]
      exact hj
    · intro f hf
      simp only [List.mem_append, List.mem_singleton] at hf
      rcases hf with hf | rfl
      · exact hp f hf
      · exact hal
  · rename_i j hj
    simp only [Prod.mk.injEq] at h
    obtain ⟨rfl, rfl⟩ := h
    obtain ⟨f, hf, hfb⟩ := findIdx?_bytes hj
    refine ⟨?_, ?_, ?_⟩
    · intro x g hg
      by_cases hx : j = x
      · subst hx
        rw [hf] at hg
        cases hg
        refine ⟨_, by rw [List.getElem?_modify]; simp [hf]; rfl, ?_⟩
        split
        · exact ⟨rfl, by simp only; omega⟩
        · exact ⟨rfl, Nat.le_refl _⟩
      · exact ⟨g, by rw [List.getElem?_modify]; simp [hx, hg], rfl, Nat.le_refl _⟩
    · intro g hg
      obtain ⟨x, hx⟩ := List.mem_iff_getElem?.1 hg
      rw [List.getElem?_modify] at hx
      cases hfx : fs[x]? with
      | none => rw [hfx] at hx; simp at hx
      | some q =>
        rw [hfx] at hx
        have hq := hp q (List.mem_iff_getElem?.2 ⟨x, hfx⟩)
        simp only [Option.map_eq_map, Option.map_some, Option.some.injEq] at hx
        subst hx
        split
        · split
          · exact hal
          · exact hq
        · exact hq
    · refine ⟨_, by rw [List.getElem?_modify]; simp [hf]; rfl, ?_⟩
      split
      · exact ⟨hfb, Nat.le_refl _⟩
      · exact ⟨hfb, by omega⟩

/-- The mappings of a section: its entities, each with the fragment that holds its bytes. -/
def Maps (s : Sec) (fs : List Frag) : List (Nat × Nat) → List Mapping → Prop
  | [], [] => True
  | (b, n) :: l, m :: ms => m.offset = b ∧ m.size = n ∧
      (∃ f, fs[m.frag]? = some f ∧ f.bytes = (s.data.drop b).take n ∧ s.align ≤ f.align) ∧
      Maps s fs l ms
  | _, _ => False

theorem maps_grows {s : Sec} {fs gs : List Frag} (hg : Grows fs gs) :
    ∀ {l ms}, Maps s fs l ms → Maps s gs l ms
  | [], [], _ => trivial
  | (b, n) :: l, m :: ms, ⟨h1, h2, ⟨f, h3, h4, h5⟩, h6⟩ => by
    obtain ⟨g, e1, e2, e3⟩ := hg _ f h3
    exact ⟨h1, h2, ⟨g, e1, e2.trans h4, Nat.le_trans h5 e3⟩, maps_grows hg h6⟩

theorem addEntities_spec {s : Sec} (hal : ∃ k, s.align = 2 ^ k) :
    ∀ {l : List (Nat × Nat)} {fs fs' : List Frag} {ms : List Mapping}, Pow fs →
    addEntities s.align s.data l fs = (fs', ms) → Grows fs fs' ∧ Pow fs' ∧ Maps s fs' l ms
  | [], fs, fs', ms, hp, h => by
    simp only [addEntities, Prod.mk.injEq] at h
    obtain ⟨rfl, rfl⟩ := h
    exact ⟨grows_refl _, hp, trivial⟩
  | (b, n) :: l, fs, fs', ms, hp, h => by
    unfold addEntities at h
    generalize he : addEntity fs s.align ((s.data.drop b).take n) = q at h
    obtain ⟨fs1, i⟩ := q
    simp only at h
    generalize hr : addEntities s.align s.data l fs1 = q at h
    obtain ⟨fs2, ms2⟩ := q
    simp only [Prod.mk.injEq] at h
    obtain ⟨rfl, rfl⟩ := h
    obtain ⟨g1, p1, f, hf, e1, e2⟩ := addEntity_spec hal hp he
    obtain ⟨g2, p2, m2⟩ := addEntities_spec hal p1 hr
    obtain ⟨f', hf', e3, e4⟩ := g2 _ f hf
    exact ⟨grows_trans g1 g2, p2, rfl, rfl, ⟨f', hf', e3.trans e1, Nat.le_trans e2 e4⟩, m2⟩

/-- The mappings find what is in an entity. -/
theorem mapInput_spec {s : Sec} {fs : List Frag} (off : Nat → Nat) :
    ∀ {l : List (Nat × Nat)} {ms : List Mapping} {b0 : Nat}, Tiles s b0 l → Maps s fs l ms →
    ∀ {b n}, (b, n) ∈ l → ∃ i f, fs[i]? = some f ∧ f.bytes = (s.data.drop b).take n ∧
      s.align ≤ f.align ∧ ∀ x, b ≤ x → x < b + n → ∀ w,
        mapInput off ms x w =
          if w > b + n - x then none else some (off i + (x - b), b + n - x)
  | (c, k) :: l, m :: ms, b0, ⟨hb0, hent, _, ht⟩, ⟨h1, h2, ⟨f, h3, h4, h5⟩, h6⟩, b, n, hm => by
    subst hb0
    simp only [List.mem_cons, Prod.mk.injEq] at hm
    rcases hm with ⟨rfl, rfl⟩ | hm
    · refine ⟨m.frag, f, h3, h4, h5, ?_⟩
      intro x hx1 hx2 w
      have hn : ¬ (x < m.offset ∨ x - m.offset ≥ m.size) := by omega
      have e : m.size - (x - m.offset) = b + n - x := by omega
      simp only [mapInput, hn, if_false, e]
      rw [h1]
    · obtain ⟨i, g, e1, e2, e3, e4⟩ := mapInput_spec off ht h6 hm
      refine ⟨i, g, e1, e2, e3, ?_⟩
      intro x hx1 hx2 w
      have hge : ∀ {l : List (Nat × Nat)} {b0}, Tiles s b0 l → ∀ {b n}, (b, n) ∈ l → b0 ≤ b := by
        intro l
        induction l with
        | nil => intro b0 _ b n h; cases h
        | cons a l ih =>
          intro b0 ht b n h
          obtain ⟨c, d⟩ := a
          obtain ⟨rfl, _, _, ht⟩ := ht
          simp only [List.mem_cons, Prod.mk.injEq] at h
          rcases h with ⟨rfl, _⟩ | h
          · exact Nat.le_refl _
          · have := ih ht h; omega
      have hb := hge ht hm
      have hn : (x < m.offset ∨ x - m.offset ≥ m.size) := by omega
      simp only [mapInput, hn, if_true]
      exact e4 x hx1 hx2 w

end Nature.Merge
