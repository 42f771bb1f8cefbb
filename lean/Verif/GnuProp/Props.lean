import Verif.GnuProp.Model

/-!
# C112: the properties of a program follow from those of its objects
-/

namespace Nature.GnuProp

open Spec (read Has All Any Used)

/-- The value of an entry, zero without one. -/
def rd (e : Option Entry) : Nat := (e.map Entry.value).getD 0

/-- The entry for a property. -/
def entry (arch : Arch) (p : Property) : Entry :=
  ⟨p.type, p.size, if p.size = 8 ∨ p.size = 4 then p.value else 1, ((kind arch p.type).map (·.2)).getD .and⟩

/-- Entries as `descriptor` makes them. -/
def Good (arch : Arch) (e : Entry) : Prop := kind arch e.type = some (e.size, e.merge)

theorem find_type {es : List Entry} {t : Nat} {e : Entry} (h : find es t = some e) : e.type = t := by
  have := List.find?_some h
  simpa using this

theorem find_mem {es : List Entry} {t : Nat} {e : Entry} (h : find es t = some e) : e ∈ es :=
  List.mem_of_find?_eq_some h

theorem find_append (a b : List Entry) (t : Nat) : find (a ++ b) t = (find a t).or (find b t) := by
  simp [find, List.find?_append]

theorem find_cons (e : Entry) (es : List Entry) (t : Nat) :
    find (e :: es) t = if e.type = t then some e else find es t := by
  by_cases h : e.type = t <;> simp [find, List.find?_cons, h]

theorem find_none {es : List Entry} {t : Nat} : find es t = none ↔ ∀ e ∈ es, e.type ≠ t := by
  simp [find, List.find?_eq_none]

/-- Types are distinct. -/
def Distinct (es : List Entry) : Prop := es.Pairwise fun a b => a.type ≠ b.type

theorem distinct_snoc (es : List Entry) (e : Entry) (h : Distinct es) (hn : find es e.type = none) :
    Distinct (es ++ [e]) := by
  unfold Distinct
  rw [List.pairwise_append]
  refine ⟨h, by simp, ?_⟩
  intro a ha b hb
  obtain rfl : b = e := by simpa using hb
  exact find_none.mp hn a ha

theorem descriptor_spec (arch : Arch) (ps : List Property) (acc es : List Entry)
    (h : descriptor arch ps acc = .ok es) (hg : ∀ e ∈ acc, Good arch e) :
    (∀ e ∈ es, Good arch e) ∧
      ∀ t, find es t = (find acc t).or ((ps.find? fun p => p.type = t).map (entry arch)) := by
  induction ps generalizing acc with
  | nil =>
    obtain rfl := Except.ok.inj h
    exact ⟨hg, by simp⟩
  | cons p ps ih =>
    rw [descriptor] at h
    split at h
    · simp at h
    · rename_i hf
      have hf : find acc p.type = none := by simpa using hf
      split at h
      · simp at h
      · rename_i size merge hk
        split at h
        · simp at h
        · rename_i hs
          have hs : p.size = size := by simpa using hs
          have he : entry arch p =
              ⟨p.type, p.size, if p.size = 8 ∨ p.size = 4 then p.value else 1, merge⟩ := by
            simp [entry, hk]
          rw [← he] at h
          obtain ⟨i1, i2⟩ := ih _ h (by
            intro e hm
            rcases List.mem_append.mp hm with hm | hm
            · exact hg e hm
            · obtain rfl : e = entry arch p := by simpa using hm
              rw [he]
              simp [Good, hk, hs])
          refine ⟨i1, ?_⟩
          intro t
          rw [i2 t, find_append]
          have ht : (entry arch p).type = p.type := rfl
          by_cases hpt : p.type = t
          · subst hpt
            simp [hf, find, ht]
          · have h2 : find [entry arch p] t = none := by simp [find, ht, hpt]
            rw [h2]
            simp [hpt]

theorem keepFirst_spec (arch : Arch) (new object : List Entry) (hg : ∀ e ∈ new, Good arch e)
    (ho : ∀ e ∈ object, Good arch e) (hd : Distinct object) :
    (∀ e ∈ keepFirst object new, Good arch e) ∧ Distinct (keepFirst object new) ∧
      ∀ t, find (keepFirst object new) t = (find object t).or (find new t) := by
  unfold keepFirst
  induction new generalizing object with
  | nil => exact ⟨ho, hd, by simp [find]⟩
  | cons e new ih =>
    rw [List.foldl_cons]
    by_cases hf : (find object e.type).isSome
    · rw [if_pos hf]
      obtain ⟨i1, i2, i3⟩ := ih object (fun x hx => hg x (by simp [hx])) ho hd
      refine ⟨i1, i2, fun t => ?_⟩
      rw [i3 t, find_cons]
      by_cases ht : e.type = t
      · subst ht
        obtain ⟨x, hx⟩ := Option.isSome_iff_exists.mp hf
        simp [hx]
      · simp [ht]
    · rw [if_neg hf]
      have hf : find object e.type = none := by simpa using hf
      obtain ⟨i1, i2, i3⟩ := ih (object ++ [e]) (fun x hx => hg x (by simp [hx])) (by
        intro x hx
        rcases List.mem_append.mp hx with hx | hx
        · exact ho x hx
        · exact hg x (by simp at hx; simp [hx])) (distinct_snoc _ _ hd hf)
      refine ⟨i1, i2, fun t => ?_⟩
      rw [i3 t, find_append, find_cons, find_cons]
      by_cases ht : e.type = t
      · subst ht
        simp [hf]
      · simp [ht, find]

theorem parse_spec (arch : Arch) (notes : List (List Property)) (object es : List Entry)
    (h : parse arch notes object = .ok es) (ho : ∀ e ∈ object, Good arch e) (hd : Distinct object) :
    (∀ e ∈ es, Good arch e) ∧ Distinct es ∧
      ∀ t, find es t = (find object t).or ((notes.flatten.find? fun p => p.type = t).map (entry arch)) := by
  induction notes generalizing object with
  | nil =>
    obtain rfl := Except.ok.inj h
    exact ⟨ho, hd, by simp⟩
  | cons note notes ih =>
    rw [parse] at h
    split at h
    · simp at h
    · rename_i new hn
      obtain ⟨d1, d2⟩ := descriptor_spec arch note [] new hn (by simp)
      obtain ⟨k1, k2, k3⟩ := keepFirst_spec arch new object d1 ho hd
      obtain ⟨i1, i2, i3⟩ := ih _ h k1 k2
      refine ⟨i1, i2, fun t => ?_⟩
      rw [i3 t, k3 t, d2 t, List.flatten_cons, List.find?_append]
      have : find [] t = none := rfl
      rw [this]
      have key : ∀ (a : Option Entry) (b c : Option Property),
          (a.or (none.or (b.map (entry arch)))).or (c.map (entry arch)) = a.or ((b.or c).map (entry arch)) := by
        intro a b c
        cases a <;> cases b <;> cases c <;> rfl
      exact key _ _ _

theorem find_mergeOne (count : Nat) (es : List Entry) (i : Entry) (t : Nat) :
    find (mergeOne count es i) t =
      if i.type = t then
        (match find es t with
          | none => some (if i.merge = .and ∧ count ≠ 0 then { i with value := 0 } else i)
          | some e => some { e with value := combine e.merge e.value i.value })
      else find es t := by
  induction es with
  | nil =>
    rw [mergeOne, find_cons]
    have e1 : (if i.merge = .and ∧ count ≠ 0 then { i with value := 0 } else i).type = i.type := by
      split <;> rfl
    rw [e1]
    rfl
  | cons x xs ih =>
    rw [mergeOne]
    by_cases hx : x.type = i.type
    · rw [if_pos hx, find_cons, find_cons]
      by_cases ht : i.type = t
      · simp [hx, ht]
      · simp [hx, ht]
    · rw [if_neg hx, find_cons, find_cons, ih]
      by_cases ht : i.type = t
      · have : x.type ≠ t := fun h => hx (h.trans ht.symm)
        simp [ht, this]
      · simp [ht]

theorem find_fold (count : Nat) (object es : List Entry) (hd : Distinct object) (t : Nat) :
    find (object.foldl (mergeOne count) es) t =
      match find object t, find es t with
      | none, e => e
      | some i, none => some (if i.merge = .and ∧ count ≠ 0 then { i with value := 0 } else i)
      | some i, some e => some { e with value := combine e.merge e.value i.value } := by
  induction object generalizing es with
  | nil => simp [find]
  | cons i object ih =>
    unfold Distinct at hd
    rw [List.pairwise_cons] at hd
    rw [List.foldl_cons, ih _ hd.2, find_mergeOne, find_cons]
    by_cases ht : i.type = t
    · have hn : find object t = none := find_none.mpr fun e he h => hd.1 e he (by rw [ht, h])
      rw [hn, if_pos ht, if_pos ht]
      rcases find es t with _ | e <;> rfl
    · rw [if_neg ht, if_neg ht]

theorem find_clear (object plan : List Entry) (t : Nat) :
    find (clear object plan) t = (find plan t).map fun e =>
      if e.merge = .and ∧ (find object t).isNone then { e with value := 0 } else e := by
  unfold clear
  induction plan with
  | nil => rfl
  | cons x xs ih =>
    rw [List.map_cons, find_cons, find_cons, ih]
    have e1 : (if x.merge = .and ∧ (find object x.type).isNone then { x with value := 0 } else x).type =
        x.type := by split <;> rfl
    rw [e1]
    by_cases ht : x.type = t
    · subst ht; simp
    · simp [ht]

/-- What is known of the entries after some objects. -/
structure Inv (arch : Arch) (os : List (List (List Property))) (plan : List Entry × Nat) : Prop where
  count : plan.2 = os.length
  distinct : Distinct plan.1
  good : ∀ e ∈ plan.1, Good arch e
  has : ∀ t, (find plan.1 t).isSome ↔ ∃ o ∈ os, Has o.flatten t
  all : ∀ t, (kind arch t = some (4, .and)) → os ≠ [] →
    ∀ b, (rd (find plan.1 t)).testBit b = true ↔ ∀ o ∈ os, (read o.flatten t).testBit b = true
  any : ∀ t, (kind arch t = some (4, .or)) →
    ∀ b, (rd (find plan.1 t)).testBit b = true ↔ ∃ o ∈ os, (read o.flatten t).testBit b = true
  max : ∀ t, (kind arch t = some (8, .max)) →
    (∀ o ∈ os, read o.flatten t ≤ rd (find plan.1 t)) ∧
      (rd (find plan.1 t) = 0 ∨ ∃ o ∈ os, read o.flatten t = rd (find plan.1 t))

theorem distinct_mergeOne (arch : Arch) (count : Nat) (es : List Entry) (i : Entry) (h : Distinct es)
    (hg : ∀ e ∈ es, Good arch e) (hi : Good arch i) :
    Distinct (mergeOne count es i) ∧ (∀ e ∈ mergeOne count es i, Good arch e) ∧
      ∀ e ∈ mergeOne count es i, e.type = i.type ∨ ∃ x ∈ es, x.type = e.type := by
  induction es with
  | nil =>
    rw [mergeOne]
    refine ⟨by simp [Distinct], ?_, ?_⟩
    · intro e he
      simp only [List.mem_singleton] at he
      subst he
      split
      · exact hi
      · exact hi
    · intro e he
      simp only [List.mem_singleton] at he
      subst he
      left
      split <;> rfl
  | cons x xs ih =>
    unfold Distinct at h
    rw [List.pairwise_cons] at h
    rw [mergeOne]
    split
    · refine ⟨?_, ?_, ?_⟩
      · unfold Distinct
        rw [List.pairwise_cons]
        exact ⟨h.1, h.2⟩
      · intro e he
        rcases List.mem_cons.mp he with rfl | he
        · exact hg x (by simp)
        · exact hg e (by simp [he])
      · intro e he
        right
        rcases List.mem_cons.mp he with rfl | he
        · exact ⟨x, by simp, rfl⟩
        · exact ⟨e, by simp [he], rfl⟩
    · rename_i hx
      obtain ⟨i1, i2, i3⟩ := ih h.2 (fun e he => hg e (by simp [he]))
      refine ⟨?_, ?_, ?_⟩
      · unfold Distinct
        rw [List.pairwise_cons]
        refine ⟨?_, i1⟩
        intro e he
        rcases i3 e he with k | ⟨y, hy, k⟩
        · rw [k]; exact hx
        · rw [← k]; exact h.1 y hy
      · intro e he
        rcases List.mem_cons.mp he with rfl | he
        · exact hg _ (by simp)
        · exact i2 e he
      · intro e he
        rcases List.mem_cons.mp he with rfl | he
        · exact Or.inr ⟨e, by simp, rfl⟩
        · rcases i3 e he with k | ⟨y, hy, k⟩
          · exact Or.inl k
          · exact Or.inr ⟨y, by simp [hy], k⟩

theorem distinct_fold (arch : Arch) (count : Nat) (object es : List Entry) (h : Distinct es)
    (hg : ∀ e ∈ es, Good arch e) (hi : ∀ i ∈ object, Good arch i) :
    Distinct (object.foldl (mergeOne count) es) ∧ ∀ e ∈ object.foldl (mergeOne count) es, Good arch e := by
  induction object generalizing es with
  | nil => exact ⟨h, hg⟩
  | cons i object ih =>
    obtain ⟨m1, m2, _⟩ := distinct_mergeOne arch count es i h hg (hi i (by simp))
    exact ih _ m1 m2 (fun x hx => hi x (by simp [hx]))

theorem distinct_clear (arch : Arch) (object plan : List Entry) (h : Distinct plan)
    (hg : ∀ e ∈ plan, Good arch e) :
    Distinct (clear object plan) ∧ ∀ e ∈ clear object plan, Good arch e := by
  unfold clear
  constructor
  · unfold Distinct
    rw [List.pairwise_map]
    refine h.imp ?_
    intro a b hab
    split <;> split <;> exact hab
  · intro e he
    obtain ⟨x, hx, rfl⟩ := List.mem_map.mp he
    split
    · exact hg x hx
    · exact hg x hx

theorem has_iff (ps : List Property) (t : Nat) :
    (ps.find? fun p => p.type = t).isSome ↔ Has ps t := by
  simp [Has, List.find?_isSome]

theorem rd_parse (arch : Arch) (notes : List (List Property)) (es : List Entry)
    (h : parse arch notes [] = .ok es) (t : Nat) :
    ((find es t).isSome ↔ Has notes.flatten t) ∧
      (∀ s m, kind arch t = some (s, m) → s = 4 ∨ s = 8 → rd (find es t) = read notes.flatten t) := by
  obtain ⟨h1, _, h3⟩ := parse_spec arch notes [] es h (by simp) (by simp [Distinct])
  have h3 := h3 t
  have e0 : find [] t = none := rfl
  rw [e0, Option.none_or] at h3
  refine ⟨?_, ?_⟩
  · rw [h3, ← has_iff]
    simp
  · intro s m hk hs
    rcases hf : notes.flatten.find? (fun p => decide (p.type = t)) with _ | p
    · rw [hf] at h3
      rw [h3]
      simp [rd, Spec.read, hf]
    · rw [hf] at h3
      have hg := h1 _ (find_mem h3)
      have hty : p.type = t := by simpa using List.find?_some hf
      simp only [Good, entry, hty, hk, Option.some.injEq, Prod.mk.injEq] at hg
      have hs' : p.size = 8 ∨ p.size = 4 := by omega
      rw [h3]
      simp [rd, Spec.read, hf, entry, hs']

theorem step (arch : Arch) (os : List (List (List Property))) (plan plan' : List Entry × Nat)
    (o : List (List Property)) (hi : Inv arch os plan) (h : addObject arch plan o = .ok plan') :
    Inv arch (os ++ [o]) plan' := by
  unfold addObject at h
  split at h
  · simp at h
  · rename_i object hp
    obtain rfl := Except.ok.inj h
    obtain ⟨g1, g2, _⟩ := parse_spec arch o [] object hp (by simp) (by simp [Distinct])
    obtain ⟨c1, c2⟩ := distinct_clear arch object plan.1 hi.distinct hi.good
    obtain ⟨f1, f2⟩ := distinct_fold arch plan.2 object _ c1 c2 g1
    have hfind := fun t => find_fold plan.2 object (clear object plan.1) g2 t
    have hmerge : ∀ t s m, kind arch t = some (s, m) →
        (∀ e, find plan.1 t = some e → e.merge = m) ∧ (∀ e, find object t = some e → e.merge = m) := by
      intro t s m hk
      constructor
      · intro e he
        have := hi.good e (find_mem he)
        rw [Good, find_type he, hk] at this
        simp only [Option.some.injEq, Prod.mk.injEq] at this
        exact this.2.symm
      · intro e he
        have := g1 e (find_mem he)
        rw [Good, find_type he, hk] at this
        simp only [Option.some.injEq, Prod.mk.injEq] at this
        exact this.2.symm
    refine ⟨by simp [hi.count], f1, f2, ?_, ?_, ?_, ?_⟩
    · intro t
      have hh := (rd_parse arch o object hp t).1
      have := hi.has t
      simp only [hfind t, find_clear, List.mem_append, List.mem_singleton]
      constructor
      · intro hs
        rcases h1 : find object t with _ | i
        · rw [h1] at hs
          simp only [Option.isSome_map] at hs
          obtain ⟨x, hx, hx'⟩ := this.mp hs
          exact ⟨x, Or.inl hx, hx'⟩
        · exact ⟨o, Or.inr rfl, hh.mp (by simp [h1])⟩
      · rintro ⟨x, hx | rfl, hx'⟩
        · have := this.mpr ⟨x, hx, hx'⟩
          rcases h1 : find object t with _ | i
          · simpa using this
          · rcases h2 : find plan.1 t with _ | e <;> simp
        · have := hh.mpr hx'
          rcases h1 : find object t with _ | i
          · simp [h1] at this
          · rcases h2 : find plan.1 t with _ | e <;> simp
    · intro t hk _ b
      have hh := (rd_parse arch o object hp t).2 4 .and hk (Or.inl rfl)
      obtain ⟨m1, m2⟩ := hmerge t 4 .and hk
      have hall := hi.all t hk
      have hhas := hi.has t
      simp only [List.mem_append, List.mem_singleton]
      have key : rd (find (object.foldl (mergeOne plan.2) (clear object plan.1)) t) =
          if os = [] then read o.flatten t else rd (find plan.1 t) &&& read o.flatten t := by
        rw [hfind t, find_clear, ← hh]
        rcases h1 : find object t with _ | i
        · rcases h2 : find plan.1 t with _ | e
          · simp [rd]
          · have hne : os ≠ [] := by
              rintro rfl
              have := hhas.mp (by simp [h2])
              simp at this
            simp [rd, m1 e h2, hne]
        · rcases h2 : find plan.1 t with _ | e
          · by_cases hos : os = []
            · have : plan.2 = 0 := by rw [hi.count, hos]; rfl
              simp [rd, this, hos]
            · have : plan.2 ≠ 0 := by
                rw [hi.count]
                intro h
                exact hos (List.length_eq_zero_iff.mp h)
              simp [rd, m2 i h1, this, hos]
          · have hne : os ≠ [] := by
              rintro rfl
              have := hhas.mp (by simp [h2])
              simp at this
            simp [rd, m1 e h2, combine, hne]
      show (rd (find (object.foldl (mergeOne plan.2) (clear object plan.1)) t)).testBit b = true ↔ _
      rw [key]
      by_cases hos : os = []
      · rw [if_pos hos]
        subst hos
        simp
      · rw [if_neg hos, Nat.testBit_and, Bool.and_eq_true, hall hos b]
        constructor
        · rintro ⟨k1, k2⟩ x (hx | rfl)
          · exact k1 x hx
          · exact k2
        · intro k
          exact ⟨fun x hx => k x (Or.inl hx), k o (Or.inr rfl)⟩
    · intro t hk b
      have hh := (rd_parse arch o object hp t).2 4 .or hk (Or.inl rfl)
      obtain ⟨m1, m2⟩ := hmerge t 4 .or hk
      have hany := hi.any t hk b
      simp only [List.mem_append, List.mem_singleton]
      have key : rd (find (object.foldl (mergeOne plan.2) (clear object plan.1)) t) =
          rd (find plan.1 t) ||| read o.flatten t := by
        rw [hfind t, find_clear, ← hh]
        rcases h1 : find object t with _ | i
        · rcases h2 : find plan.1 t with _ | e
          · simp [rd]
          · simp [rd, m1 e h2]
        · rcases h2 : find plan.1 t with _ | e
          · simp [rd, m2 i h1]
          · simp [rd, m1 e h2, combine]
      show (rd (find (object.foldl (mergeOne plan.2) (clear object plan.1)) t)).testBit b = true ↔ _
      rw [key, Nat.testBit_or, Bool.or_eq_true, hany]
      constructor
      · rintro (⟨x, hx, k⟩ | k)
        · exact ⟨x, Or.inl hx, k⟩
        · exact ⟨o, Or.inr rfl, k⟩
      · rintro ⟨x, hx | rfl, k⟩
        · exact Or.inl ⟨x, hx, k⟩
        · exact Or.inr k
    · intro t hk
      have hh := (rd_parse arch o object hp t).2 8 .max hk (Or.inr rfl)
      obtain ⟨m1, m2⟩ := hmerge t 8 .max hk
      obtain ⟨x1, x2⟩ := hi.max t hk
      simp only [List.mem_append, List.mem_singleton]
      have key : rd (find (object.foldl (mergeOne plan.2) (clear object plan.1)) t) =
          if read o.flatten t > rd (find plan.1 t) then read o.flatten t else rd (find plan.1 t) := by
        rw [hfind t, find_clear, ← hh]
        rcases h1 : find object t with _ | i
        · rcases h2 : find plan.1 t with _ | e
          · simp [rd]
          · simp [rd, m1 e h2]
        · rcases h2 : find plan.1 t with _ | e
          · simp [rd, m2 i h1]
          · simp [rd, m1 e h2, combine]
      simp only [key]
      split
      · rename_i hgt
        refine ⟨?_, Or.inr ⟨o, Or.inr rfl, rfl⟩⟩
        rintro x (hx | rfl)
        · have := x1 x hx; omega
        · exact Nat.le_refl _
      · rename_i hgt
        refine ⟨?_, ?_⟩
        · rintro x (hx | rfl)
          · exact x1 x hx
          · omega
        · rcases x2 with k | ⟨x, hx, k⟩
          · exact Or.inl k
          · exact Or.inr ⟨x, Or.inl hx, k⟩

theorem addAll_inv (arch : Arch) (todo done : List (List (List Property))) (plan plan' : List Entry × Nat)
    (hi : Inv arch done plan) (h : addAll arch todo plan = .ok plan') : Inv arch (done ++ todo) plan' := by
  induction todo generalizing done plan with
  | nil =>
    obtain rfl := Except.ok.inj h
    simpa using hi
  | cons o todo ih =>
    rw [addAll] at h
    split at h
    · simp at h
    · rename_i plan1 h1
      have := ih (done ++ [o]) plan1 (step arch done plan plan1 o hi h1) h
      simpa using this

/-- The program keeps an entry. -/
def Kept (e : Entry) : Bool := e.merge = .present || e.value ≠ 0

theorem mem_insert (e x : Entry) (es : List Entry) : x ∈ insert e es ↔ x = e ∨ x ∈ es := by
  induction es with
  | nil => simp [insert]
  | cons y ys ih =>
    rw [insert]
    split
    · simp
    · rw [List.mem_cons, ih, List.mem_cons]
      constructor
      · rintro (h | h | h)
        · exact Or.inr (Or.inl h)
        · exact Or.inl h
        · exact Or.inr (Or.inr h)
      · rintro (h | h | h)
        · exact Or.inr (Or.inl h)
        · exact Or.inl h
        · exact Or.inr (Or.inr h)

theorem mem_sort (x : Entry) (es : List Entry) : x ∈ sort es ↔ x ∈ es := by
  unfold sort
  induction es with
  | nil => simp
  | cons e es ih => rw [List.foldr_cons, mem_insert, ih, List.mem_cons]

theorem insert_sorted (e : Entry) (es : List Entry) (h : es.Pairwise fun a b => a.type < b.type)
    (hn : ∀ x ∈ es, e.type ≠ x.type) : (insert e es).Pairwise fun a b => a.type < b.type := by
  induction es with
  | nil => simp [insert]
  | cons y ys ih =>
    rw [List.pairwise_cons] at h
    rw [insert]
    split
    · rename_i hle
      have := hn y (by simp)
      refine List.pairwise_cons.mpr ⟨?_, List.pairwise_cons.mpr h⟩
      intro x hx
      rcases List.mem_cons.mp hx with rfl | hx
      · omega
      · have := h.1 x hx; omega
    · rename_i hle
      refine List.pairwise_cons.mpr ⟨?_, ih h.2 (fun x hx => hn x (by simp [hx]))⟩
      intro x hx
      rcases (mem_insert e x ys).mp hx with rfl | hx
      · omega
      · exact h.1 x hx

theorem sort_sorted (es : List Entry) (hd : Distinct es) :
    (sort es).Pairwise fun a b => a.type < b.type := by
  unfold Distinct at hd
  induction es with
  | nil => simp [sort]
  | cons e es ih =>
    rw [List.pairwise_cons] at hd
    exact insert_sorted e _ (ih hd.2) fun x hx => hd.1 x ((mem_sort x es).mp hx)

theorem mem_finalize (plan : List Entry) (p : Property) :
    p ∈ finalize plan ↔ ∃ e ∈ plan, Kept e = true ∧ p = ⟨e.type, e.size, e.value⟩ := by
  unfold finalize
  simp only [List.mem_map, List.mem_filter, mem_sort]
  constructor
  · rintro ⟨e, ⟨h1, h2⟩, rfl⟩
    exact ⟨e, h1, h2, rfl⟩
  · rintro ⟨e, h1, h2, rfl⟩
    exact ⟨e, ⟨h1, h2⟩, rfl⟩

theorem finalize_sorted (plan : List Entry) (hd : Distinct plan) :
    (finalize plan).Pairwise fun a b => a.type < b.type := by
  unfold finalize
  rw [List.pairwise_map]
  exact (sort_sorted plan hd).filter _

theorem find_unique {es : List Entry} (hd : Distinct es) {e : Entry} (he : e ∈ es) :
    find es e.type = some e := by
  induction es with
  | nil => simp at he
  | cons x xs ih =>
    unfold Distinct at hd
    rw [List.pairwise_cons] at hd
    rw [find_cons]
    rcases List.mem_cons.mp he with rfl | he
    · simp
    · rw [if_neg (hd.1 e he)]
      exact ih hd.2 he

theorem read_finalize (plan : List Entry) (hd : Distinct plan) (t : Nat)
    (hm : ∀ e, find plan t = some e → e.merge ≠ .present) : read (finalize plan) t = rd (find plan t) := by
  unfold Spec.read
  split
  · rename_i p hp
    have ht : p.type = t := by simpa using List.find?_some hp
    obtain ⟨e, h1, h2, rfl⟩ := (mem_finalize _ _).mp (List.mem_of_find?_eq_some hp)
    simp only at ht
    rw [← ht, find_unique hd h1]
    rfl
  · rename_i hn
    rw [List.find?_eq_none] at hn
    rcases hf : find plan t with _ | e
    · rfl
    · have ht := find_type hf
      by_cases hv : e.value = 0
      · simp [rd, hv]
      · exact absurd (by simp [ht]) (hn ⟨e.type, e.size, e.value⟩
          ((mem_finalize _ _).mpr ⟨e, find_mem hf, by simp [Kept, hv], rfl⟩))

theorem kind_all (arch : Arch) (t : Nat) (h : All arch t) : kind arch t = some (4, .and) := by
  unfold All at h
  unfold kind
  rw [if_neg (by omega), if_neg (by omega)]
  rcases h with h | ⟨h1, h⟩ | ⟨h1, h⟩
  · rw [if_pos (by omega)]
  · rw [if_neg (by omega), if_neg (by omega), if_pos ⟨h1, h⟩]
  · rw [if_neg (by omega), if_neg (by omega), if_neg (by omega), if_pos ⟨h1, h⟩]

theorem kind_any (arch : Arch) (t : Nat) (h : Any arch t) : kind arch t = some (4, .or) := by
  unfold Any at h
  unfold kind
  rw [if_neg (by omega), if_neg (by omega), if_neg (by omega)]
  rcases h with h | ⟨h1, h⟩
  · rw [if_pos (by omega)]
  · rw [if_neg (by omega), if_neg (by omega), if_neg (by omega), if_pos ⟨h1, by omega⟩]

/-- A program has a feature such as control-flow protection exactly if all of its objects have it; it needs
what one of its objects needs; its stack size is the greatest asked for; and it forbids copies of protected
symbols if one object does.  Its properties are in the order of their types, each type once. -/
theorem C112_merged_partial (arch : Arch) (objects : List (List (List Property))) (out : List Property)
    (h : link arch objects = .ok out) :
    (∀ t, All arch t → objects ≠ [] → ∀ b, (read out t).testBit b = true ↔
      ∀ o ∈ objects, (read o.flatten t).testBit b = true) ∧
    (∀ t, Any arch t → ∀ b, (read out t).testBit b = true ↔
      ∃ o ∈ objects, (read o.flatten t).testBit b = true) ∧
    ((∀ o ∈ objects, read o.flatten 1 ≤ read out 1) ∧
      (read out 1 = 0 ∨ ∃ o ∈ objects, read o.flatten 1 = read out 1)) ∧
    (Has out 2 ↔ ∃ o ∈ objects, Has o.flatten 2) ∧
    (∀ p ∈ out, ∃ o ∈ objects, Has o.flatten p.type) ∧
    out.Pairwise fun a b => a.type < b.type := by
  unfold link at h
  split at h
  · simp at h
  · rename_i plan hp
    obtain rfl := Except.ok.inj h
    have hi : Inv arch objects plan := by
      have := addAll_inv arch objects [] ([], 0) plan
        ⟨rfl, by simp [Distinct], by simp, by simp [find], by simp, by simp [find, rd],
          by simp [find, rd]⟩ hp
      simpa using this
    have hread : ∀ t s m, kind arch t = some (s, m) → m ≠ .present →
        read (finalize plan.1) t = rd (find plan.1 t) := by
      intro t s m hk hm
      refine read_finalize _ hi.distinct _ ?_
      intro e he
      have := hi.good e (find_mem he)
      rw [Good, find_type he, hk] at this
      simp only [Option.some.injEq, Prod.mk.injEq] at this
      rw [← this.2]
      exact hm
    refine ⟨?_, ?_, ?_, ?_, ?_, finalize_sorted _ hi.distinct⟩
    · intro t ht hne b
      have hk := kind_all arch t ht
      rw [hread t _ _ hk (by decide)]
      exact hi.all t hk hne b
    · intro t ht b
      have hk := kind_any arch t ht
      rw [hread t _ _ hk (by decide)]
      exact hi.any t hk b
    · have hk : kind arch 1 = some (8, .max) := rfl
      rw [hread 1 _ _ hk (by decide)]
      exact hi.max 1 hk
    · have hk : kind arch 2 = some (0, .present) := rfl
      rw [← hi.has 2]
      constructor
      · rintro ⟨p, hp, ht⟩
        obtain ⟨e, h1, _, rfl⟩ := (mem_finalize _ _).mp hp
        simp only at ht
        rw [← ht, find_unique hi.distinct h1]
        rfl
      · intro hs
        obtain ⟨e, he⟩ := Option.isSome_iff_exists.mp hs
        have := hi.good e (find_mem he)
        rw [Good, find_type he, hk] at this
        simp only [Option.some.injEq, Prod.mk.injEq] at this
        exact ⟨_, (mem_finalize _ _).mpr ⟨e, find_mem he, by simp [Kept, ← this.2], rfl⟩, find_type he⟩
    · intro p hp
      obtain ⟨e, h1, _, rfl⟩ := (mem_finalize _ _).mp hp
      exact (hi.has e.type).mp (by rw [find_unique hi.distinct h1]; rfl)

/-- Two objects with IBT and SHSTK, and IBT only, and the second needing a feature. -/
example : link .amd64 [[[⟨0xc0000002, 4, 3⟩]], [[⟨0xc0008002, 4, 1⟩, ⟨0xc0000002, 4, 1⟩]]] =
    .ok [⟨0xc0000002, 4, 1⟩, ⟨0xc0008002, 4, 1⟩] := by rfl

/-- An object without notes takes the feature away. -/
example : link .amd64 [[[⟨0xc0000002, 4, 3⟩]], []] = .ok [] := by rfl

/-- What a program uses is given although it is not known of the second object: a loader that relies on it
takes the program to use less than it does. -/
theorem C112_used_counterexample :
    Used .amd64 0xc0010002 ∧
      link .amd64 [[[⟨0xc0010002, 4, 1⟩]], []] = .ok [⟨0xc0010002, 4, 1⟩] := by
  exact ⟨⟨rfl, Or.inr rfl⟩, rfl⟩

end Nature.GnuProp
