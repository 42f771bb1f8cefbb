import Verif.Types.Complete
/-
`accept` takes everything that `Ok` allows.
-/
namespace Nature.Types

theorem declaredL_mem {heads : String → Head} {t : Ty} {ts : List Ty} (h : t ∈ ts)
    (hd : declaredL heads ts = true) : t.declared heads = true := by
  induction ts with
  | nil => cases h
  | cons x xs ih =>
    simp only [declaredL, Bool.and_eq_true] at hd
    rcases List.mem_cons.1 h with rfl | h
    · exact hd.1
    · exact ih h hd.2

theorem compare_same (heads : String → Head) {t s : Ty} (h : Same t s)
    (ht : t.declared heads = true) (hs : s.declared heads = true) : compare t s = true :=
  cmp_same heads h ht hs true []

theorem compare_refl (heads : String → Head) (t : Ty) (ht : t.declared heads = true) :
    compare t t = true := compare_same heads (same_refl t) ht ht

theorem compare_fits (heads : String → Head) {t s : Ty} (h : Fits t s)
    (ht : t.declared heads = true) (hs : s.declared heads = true) : compare t s = true := by
  cases h with
  | same h => exact compare_same heads h ht hs
  | all => simp [compare, cmp]
  | fn h => cases h <;> simp [compare, cmp, kind, core, kind0]
  | integer p hp h =>
    cases h <;> cases p <;> simp [Prim.whole, compare, cmp, kind, core, kind0, isInteger] at hp ⊢
  | floater p hp h =>
    cases h <;> cases p <;> simp [Prim.floating, compare, cmp, kind, core, kind0, isFloat] at hp ⊢
  | ptrNull h1 h2 =>
    cases h1 <;> cases h2 <;> simp [compare, cmp, kind, core, kind0]
  | ptrRef h1 h2 h3 =>
    cases h1 <;> cases h2 <;> simp [Ty.declared] at ht hs <;>
      simp [compare, cmp, kind, core, kind0]
    · exact cmp_same heads h3 ht hs _ _
    · exact cmp_same heads h3 ht hs.1.2 _ _
    · exact cmp_same heads h3 ht.1.2 hs _ _
    · exact cmp_same heads h3 ht.1.2 hs.1.2 _ _
  | more h1 h2 h3 =>
    cases h1 <;> cases h2 <;> simp [Ty.declared] at ht hs <;>
      simp [compare, cmp, nominal, kind, core, kind0]
    · exact each_same heads h3 ht.1 hs.1 _
    · exact each_same heads h3 ht.1 hs.1.2.1 _
    · exact each_same heads h3 ht.1.2.1 hs.1 _
    · exact each_same heads h3 ht.1.2.1 hs.1.2.1 _

theorem named_heads {heads : String → Head} {n : String} {a a' : List Ty} {b b' : Ty}
    (h : (Ty.named n a b).declared heads = true) (h' : (Ty.named n a' b').declared heads = true)
    (hk : b.known = true) (hk' : b'.known = true) : b.head = b'.head := by
  simp [Ty.declared, hk, hk'] at h h'
  rw [h.2, h'.2]

theorem kind0_head (b : Ty) :
    (kind0 b = .iface ↔ b.head = .iface) ∧ (kind0 b = .prim .any ↔ b.head = .any) ∧
    (kind0 b = .union ↔ b.head = .union) := by
  cases b <;> simp [kind0, Ty.head]
  rename_i p; cases p <;> simp

theorem not_stop {n : String} {a : List Ty} {b : Ty} (h : ¬ Means (.named n a b) .stop) :
    b.known = true := by
  cases b <;> simp [Ty.known]
  exact h (.named n a .stop)

/-- A value that fits as it is needs no conversion. -/
theorem fits_kinds {heads : String → Head} {t s : Ty} (h : Fits t s)
    (ht : t.declared heads = true) (hs : s.declared heads = true) (hk : ¬ Means s .stop) :
    (kind t = .iface → kind s = .iface) ∧ (kind t = .prim .any → kind s = .prim .any) ∧
    (kind t = .union → kind s = .union) := by
  cases h with
  | same h =>
    cases h
    case named a a' n b b' hb hl =>
      have k' := not_stop hk
      simp only [kind, core]
      cases hkb : b.known with
      | false => cases b <;> simp [Ty.known, kind0] at hkb ⊢
      | true =>
        have e := named_heads ht hs hkb k'
        have x := kind0_head b
        have y := kind0_head b'
        rw [x.1, x.2.1, x.2.2, y.1, y.2.1, y.2.2, e]
        simp
    case openL b n a h1 h2 h3 =>
      cases b <;> simp [Ty.lists] at h1
      cases s <;> simp [Ty.lists] at h2
      simp [kind, core, kind0]
    case openR b n a h1 h2 h3 =>
      cases b <;> simp [Ty.lists] at h1
      cases t <;> simp [Ty.lists] at h2
      simp [kind, core, kind0]
    case openB b d n m a c h1 h2 h3 =>
      cases b <;> simp [Ty.lists] at h1
      cases d <;> simp [Ty.lists] at h2
      simp [kind, core, kind0]
    all_goals simp [kind, core, kind0]
  | all => simp [kind, core, kind0]
  | fn h => simp [kind, core, kind0]
  | integer p hp h => simp [kind, core, kind0]
  | floater p hp h => simp [kind, core, kind0]
  | ptrNull h1 h2 => cases h1 <;> simp [kind, core, kind0]
  | ptrRef h1 h2 h3 => cases h1 <;> simp [kind, core, kind0]
  | more h1 h2 h3 => cases h1 <;> cases h2 <;> simp [kind, core, kind0]

theorem nullableIface_some {t i : Ty} (h : nullableIface t = some i) :
    ∃ n a ds, i = .iface n a ∧ Means t (.union true (.iface n a :: ds)) := by
  unfold nullableIface at h
  split at h
  · rename_i d ds e
    cases d <;> simp at h
    rename_i n a
    refine ⟨n, a, ds, h.symm, ?_⟩
    cases t <;> simp [core] at e
    · obtain ⟨rfl, rfl⟩ := e; exact .plain _
    · subst e; exact .named ..
  · cases h

theorem accept_fits (heads : String → Head) (impl : String → Ty → Bool) {t s : Ty}
    (h : Fits t s) (ht : t.declared heads = true) (hs : s.declared heads = true)
    (hk : ¬ Means s .stop) (hn : ∀ n a ds, ¬ Means t (.union true (.iface n a :: ds))) :
    accept impl t s = true := by
  obtain ⟨k1, k2, k3⟩ := fits_kinds h ht hs hk
  have e1 : stepIface impl t s = some s := by
    unfold stepIface
    by_cases e : kind t = .iface
    · simp [e, canIface, k1 e]
    · simp [e]
  have e2 : stepNullable impl t s = some s := by
    unfold stepNullable
    cases e : nullableIface t with
    | none => rfl
    | some i =>
      obtain ⟨n, a, ds, _, hm⟩ := nullableIface_some e
      exact absurd hm (hn n a ds)
  have e3 : stepAny t s = s := by
    unfold stepAny
    by_cases e : kind t = .prim .any
    · simp [e, canAny, k2 e]
    · simp [e]
  have e4 : stepUnion t s = some s := by
    unfold stepUnion
    split
    · rename_i f ds e
      have : kind s = .union := k3 (by simp [kind, e, kind0])
      simp [canUnion, this]
    · rfl
  simp only [accept, e1, e2, e3, e4, finish]
  exact compare_fits heads h ht hs

theorem offers_step {impl : String → Ty → Bool} {s i : Ty} {m : String} (h : Offers s m)
    (hi : impl m i = true) : canIface s = true ∧ asIface impl s i = true := by
  cases h with
  | direct hb hr =>
    rename_i b a
    refine ⟨?_, ?_⟩
    · cases b <;> simp [canIface, kind, core, kind0, Ty.solid] at hb ⊢
      rename_i p; cases p <;> simp at hb ⊢
    · cases b <;> simp [asIface, core, hi] at hr ⊢
  | ref h => cases h <;> simp [canIface, asIface, kind, core, kind0, hi]
  | ptr h => cases h <;> simp [canIface, asIface, kind, core, kind0, hi]

theorem can_any {s : Ty} (h1 : ¬ Means s (.prim .any)) (h2 : ¬ Means s (.prim .void)) :
    canAny s = true := by
  unfold canAny kind
  cases s with
  | prim p =>
    cases p <;> simp [core, kind0]
    · exact h2 (.plain _)
    · exact h1 (.plain _)
  | named n a b =>
    cases b <;> simp [core, kind0]
    rename_i p
    cases p <;> simp
    · exact h2 (.named ..)
    · exact h1 (.named ..)
  | _ => simp [core, kind0]

theorem can_union {s : Ty} (h1 : ¬ Means s (.prim .any)) (h2 : ¬ Means s (.prim .void))
    (h3 : ∀ g ss, ¬ Means s (.union g ss)) : canUnion s = true := by
  unfold canUnion kind
  cases s with
  | prim p =>
    cases p <;> simp [core, kind0]
    · exact h2 (.plain _)
    · exact h1 (.plain _)
  | union g ss => exact absurd (.plain _) (h3 g ss)
  | named n a b =>
    cases b <;> simp [core, kind0]
    · rename_i p
      cases p <;> simp
      · exact h2 (.named ..)
      · exact h1 (.named ..)
    · exact h3 _ _ (.named ..)
  | _ => simp [core, kind0]

theorem accept_ok (heads : String → Head) (impl : String → Ty → Bool) {t s : Ty}
    (h : Ok impl t s) (ht : t.declared heads = true) (hs : s.declared heads = true)
    (hk : ¬ Means s .stop)
    (hn : (∀ n a ds, ¬ Means t (.union true (.iface n a :: ds))) ∨ ¬ Fits t s) :
    accept impl t s = true := by
  have hr := compare_refl heads t ht
  cases h with
  | fits h =>
    rcases hn with hn | hn
    · exact accept_fits heads impl h ht hs hk hn
    · exact absurd h hn
  | any h1 h2 h3 =>
    have := can_any h2 h3
    cases h1 <;>
      simpa [accept, stepIface, stepNullable, nullableIface, stepAny, stepUnion, finish, kind, core, kind0,
        this] using hr
  | one h1 h2 h3 h4 h5 h6 =>
    rename_i f ds d
    have hc := can_union h2 h3 h4
    have hdd : d.declared heads = true := by
      cases h1 <;> simp [Ty.declared] at ht
      · exact declaredL_mem h5 ht.1
      · exact declaredL_mem h5 ht.1.2.1
    have hcon : contains ds s = true := by
      simp only [contains, List.any_eq_true]
      exact ⟨d, h5, compare_same heads h6 hdd hs⟩
    have e2 : stepNullable impl t s = some s := by
      unfold stepNullable
      cases e : nullableIface t with
      | none => rfl
      | some i =>
        obtain ⟨n, a, ds', rfl, hm⟩ := nullableIface_some e
        have hcan : canIface s = false := by
          have hds : ds = [.iface n a, .prim .null] := by
            cases h1 <;> cases hm <;> simp [Ty.declared] at ht
            · have := ht.2; split at this
              · rename_i e; simp at e; simp [e]
              · cases this
            · have := ht.1.2.2; split at this
              · rename_i e; simp at e; simp [e]
              · cases this
          subst hds
          simp at h5
          rcases h5 with rfl | rfl
          · cases h6 <;> simp_all [canIface, kind, core, kind0, Ty.lists]
          · cases h6 <;> simp_all [canIface, kind, core, kind0, Ty.lists]
        simp [hcan]
    cases h1 <;>
      simp [accept, stepIface, e2, stepAny, stepUnion, finish, kind, core, kind0, hc, hcon, hr]
  | iface h1 h2 =>
    obtain ⟨c1, c2⟩ := offers_step h1 h2
    simp [accept, stepIface, stepNullable, nullableIface, stepAny, stepUnion, finish, kind, core, kind0, c1,
      c2, hr]
  | nullable h1 h2 h3 =>
    obtain ⟨c1, c2⟩ := offers_step h2 h3
    have hc : ∀ n a ds, contains (.iface n a :: ds) (.iface n a) = true := by
      intro n a ds
      simp [contains, compare, cmp, nominal, kind, core, kind0]
    cases h1 <;>
      simp [accept, stepIface, stepNullable, nullableIface, stepAny, stepUnion, finish, canUnion, kind,
        core, kind0, c1, c2, hr, hc]

end Nature.Types
