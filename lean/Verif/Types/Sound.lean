import Verif.Types.Accept
/-
What `accept` takes is allowed by `Ok`, for targets that are rigid inside.
-/
namespace Nature.Types

/-- A source that is not compared by name and is not a union is what it looks like. -/
theorem not_named {s : Ty} (hn : nominal s = false) (hu : kind s ≠ .union) : core s = s := by
  cases s <;> simp [core]
  rename_i b
  cases b <;> simp [nominal, kind, core, kind0] at hn hu

theorem kind_prim {s : Ty} {p : Prim} (hn : nominal s = false) (h : kind s = .prim p) :
    s = .prim p := by
  have e := not_named hn (by simp [h])
  simp only [kind, e] at h
  cases s <;> simp [kind0] at h
  rw [h]

theorem src_of {s x : Ty} (hn : nominal s = false) (h : core s = x) (hx : kind0 x ≠ .union) :
    s = x := by
  rw [← h] at hx
  exact (not_named hn hx).symm.trans h

mutual
theorem cmp_rigid : ∀ (d s : Ty) (vis v : Vis), d.rigid = true → cmp true d s vis = (true, v) →
    v = vis ∧ Same d s
  | .prim p, s, vis, v, _, h => by
    simp only [cmp] at h
    split at h
    · simp at h
    · rename_i hn
      simp at h
      rw [kind_prim (by simpa using hn) h.1]
      exact ⟨h.2.symm, .prim p⟩
  | .param n, s, vis, v, _, h => by
    simp only [cmp] at h
    split at h
    · simp at h
    · rename_i hn
      split at h
      · rename_i m e
        simp at h
        rw [src_of (by simpa using hn) e (by simp [kind0]), ← h.1]
        exact ⟨h.2.symm, .param n⟩
      · simp at h
  | .ref d, s, vis, v, hr, h => by
    simp only [cmp] at h
    split at h
    · simp at h
    · rename_i hn
      split at h
      · rename_i m e
        rw [src_of (by simpa using hn) e (by simp [kind0])]
        have := cmp_rigid d m vis v (by simpa [Ty.rigid] using hr) h
        exact ⟨this.1, .ref this.2⟩
      · simp at h
  | .vec d, s, vis, v, hr, h => by
    simp only [cmp] at h
    split at h
    · simp at h
    · rename_i hn
      split at h
      · rename_i m e
        rw [src_of (by simpa using hn) e (by simp [kind0])]
        have := cmp_rigid d m vis v (by simpa [Ty.rigid] using hr) h
        exact ⟨this.1, .vec this.2⟩
      · simp at h
  | .set d, s, vis, v, hr, h => by
    simp only [cmp] at h
    split at h
    · simp at h
    · rename_i hn
      split at h
      · rename_i m e
        rw [src_of (by simpa using hn) e (by simp [kind0])]
        have := cmp_rigid d m vis v (by simpa [Ty.rigid] using hr) h
        exact ⟨this.1, .set this.2⟩
      · simp at h
  | .chan d, s, vis, v, hr, h => by
    simp only [cmp] at h
    split at h
    · simp at h
    · rename_i hn
      split at h
      · rename_i m e
        rw [src_of (by simpa using hn) e (by simp [kind0])]
        have := cmp_rigid d m vis v (by simpa [Ty.rigid] using hr) h
        exact ⟨this.1, .chan this.2⟩
      · simp at h
  | .arr k d, s, vis, v, hr, h => by
    simp only [cmp] at h
    split at h
    · simp at h
    · rename_i hn
      split at h
      · rename_i k' m e
        rw [src_of (by simpa using hn) e (by simp [kind0])]
        split at h
        · simp at h
        · rename_i hk
          simp at hk; subst hk
          have := cmp_rigid d m vis v (by simpa [Ty.rigid] using hr) h
          exact ⟨this.1, .arr k this.2⟩
      · simp at h
  | .map dk dv, s, vis, v, hr, h => by
    simp only [cmp] at h
    simp [Ty.rigid] at hr
    split at h
    · simp at h
    · rename_i hn
      split at h
      · rename_i k' m e
        rw [src_of (by simpa using hn) e (by simp [kind0])]
        split at h
        · rename_i v1 e1
          have h1 := cmp_rigid dk k' vis v1 hr.1 e1
          have h2 := cmp_rigid dv m v1 v hr.2 h
          exact ⟨h2.1.trans h1.1, .map h1.2 h2.2⟩
        · simp at h
      · simp at h
  | .tuple ds, s, vis, v, hr, h => by
    simp only [cmp] at h
    simp [Ty.rigid] at hr
    split at h
    · simp at h
    · rename_i hn
      split at h
      · rename_i ss e
        rw [src_of (by simpa using hn) e (by simp [kind0])]
        split at h
        · simp at h
        · have := cmpL_rigid ds ss vis v hr h
          exact ⟨this.1, .tuple this.2⟩
      · simp at h
  | .struct ns ds, s, vis, v, hr, h => by
    simp only [cmp] at h
    simp [Ty.rigid] at hr
    split at h
    · simp at h
    · rename_i hn
      split at h
      · rename_i ms ss e
        rw [src_of (by simpa using hn) e (by simp [kind0])]
        split at h
        · simp at h
        · have := cmpF_rigid ds ns ms ss vis v hr h
          rw [← this.2.1]
          exact ⟨this.1, .struct ns this.2.2⟩
      · simp at h
  | .tagged ns ds, s, vis, v, hr, h => by
    simp only [cmp] at h
    simp [Ty.rigid] at hr
    split at h
    · simp at h
    · rename_i hn
      split at h
      · rename_i ms ss e
        rw [src_of (by simpa using hn) e (by simp [kind0])]
        split at h
        · simp at h
        · have := cmpF_rigid ds ns ms ss vis v hr h
          rw [← this.2.1]
          exact ⟨this.1, .tagged ns this.2.2⟩
      · simp at h
  | .fn df dr dps, s, vis, v, hr, h => by
    simp only [cmp] at h
    simp [Ty.rigid] at hr
    split at h
    · simp at h
    · rename_i hn
      split at h
      · rename_i sf sr sps e
        rw [src_of (by simpa using hn) e (by simp [kind0])]
        split at h
        · rename_i v1 e1
          have h1 := cmp_rigid dr sr vis v1 hr.1 e1
          split at h
          · simp at h
          · split at h
            · simp at h
            · split at h
              · simp at h
              · split at h
                · simp at h
                · split at h
                  · simp at h
                  · rename_i f1 f2 f3 f4
                    have h2 := cmpL_rigid dps sps v1 v hr.2 h
                    have : df = sf := by
                      cases df; cases sf; simp at f1 f2 f3 f4 ⊢; exact ⟨f1, f2, f3, f4⟩
                    subst this
                    exact ⟨h2.1.trans h1.1, .fn df h1.2 h2.2⟩
        · simp at h
      · simp at h
  | .named n a b, s, vis, v, hr, h => by
    simp only [cmp] at h
    have hb : kind0 b ≠ .ptr ∧ kind0 b ≠ .union ∧ b.lists = false := by
      cases b <;> simp [Ty.rigid, kind0, Ty.lists] at hr ⊢
    have hra : rigidL a = true := by
      simp [Ty.rigid] at hr; exact hr.1
    simp [hb.1, hb.2.1] at h
    split at h
    · rename_i m c b'
      split at h
      · rename_i e; subst e
        have := cmpL_rigid a c vis v hra h
        exact ⟨this.1, .named n b b' (by simp [hb.2.2]) this.2⟩
      · simp at h
    · simp at h
  | .allT, _, _, _, hr, _ | .fnT, _, _, _, hr, _ | .integerT, _, _, _, hr, _
  | .floaterT, _, _, _, hr, _ | .ptr _, _, _, _, hr, _ | .union _ _, _, _, _, hr, _
  | .iface _ _, _, _, _, hr, _ | .stop, _, _, _, hr, _ => by simp [Ty.rigid] at hr

theorem cmpL_rigid : ∀ (ds ss : List Ty) (vis v : Vis), rigidL ds = true →
    cmpL ds ss vis = (true, v) → v = vis ∧ SameL ds ss
  | [], ss, vis, v, _, h => by
    cases ss with
    | nil => simp [cmpL] at h; exact ⟨h.symm, .nil⟩
    | cons s ss => simp [cmpL] at h
  | d :: ds, [], vis, v, _, h => by simp [cmpL] at h
  | d :: ds, s :: ss, vis, v, hr, h => by
    simp only [rigidL, Bool.and_eq_true] at hr
    simp only [cmpL] at h
    split at h
    · rename_i v1 e1
      have h1 := cmp_rigid d s vis v1 hr.1 e1
      have h2 := cmpL_rigid ds ss v1 v hr.2 h
      exact ⟨h2.1.trans h1.1, .cons h1.2 h2.2⟩
    · simp at h

theorem cmpF_rigid : ∀ (ds : List Ty) (ns ms : List String) (ss : List Ty) (vis v : Vis),
    rigidL ds = true → cmpF ns ds ms ss vis = (true, v) → v = vis ∧ ns = ms ∧ SameL ds ss
  | [], ns, ms, ss, vis, v, _, h => by
    simp [cmpF] at h
    obtain ⟨⟨⟨rfl, rfl⟩, rfl⟩, rfl⟩ := h
    exact ⟨rfl, rfl, .nil⟩
  | d :: ds, ns, ms, ss, vis, v, hr, h => by
    simp only [rigidL, Bool.and_eq_true] at hr
    simp only [cmpF] at h
    split at h
    · rename_i n ns m ms s ss
      split at h
      · rename_i hnm
        simp at hnm; subst hnm
        split at h
        · rename_i v1 e1
          have h1 := cmp_rigid d s vis v1 hr.1 e1
          have h2 := cmpF_rigid ds ns ms ss v1 v hr.2 h
          exact ⟨h2.1.trans h1.1, by rw [h2.2.1], .cons h1.2 h2.2.2⟩
        · simp at h
      · simp at h
    · simp at h
end

theorem compare_rigid {d s : Ty} (hr : d.rigid = true) (h : compare d s = true) : Same d s := by
  have : cmp true d s [] = (true, (cmp true d s []).2) := Prod.ext h rfl
  exact (cmp_rigid d s [] _ hr this).2

theorem any_rigid {s : Ty} : ∀ (ds : List Ty) (vis v : Vis), rigidL ds = true →
    cmpAny ds s vis = (true, v) → ∃ d ∈ ds, Same d s
  | [], vis, v, _, h => by simp [cmpAny] at h
  | d :: ds, vis, v, hr, h => by
    simp only [rigidL, Bool.and_eq_true] at hr
    simp only [cmpAny] at h
    split at h
    · rename_i v1 e1
      exact ⟨d, by simp, (cmp_rigid d s vis v1 hr.1 e1).2⟩
    · rename_i v1 e1
      obtain ⟨x, hx, hs⟩ := any_rigid ds v1 v hr.2 h
      exact ⟨x, by simp [hx], hs⟩

theorem each_rigid {ds : List Ty} (hr : rigidL ds = true) : ∀ (ss : List Ty) (vis v : Vis),
    eachIn (fun s vis => cmpAny ds s vis) ss vis = (true, v) → Among ds ss
  | [], vis, v, _ => .nil ds
  | s :: ss, vis, v, h => by
    simp only [eachIn] at h
    split at h
    · rename_i v1 e1
      obtain ⟨d, hd, hs⟩ := any_rigid ds vis v1 hr e1
      exact .cons hd hs (each_rigid hr ss v1 v h)
    · simp at h

theorem cmp_named (own : Bool) (n : String) (a : List Ty) (b src : Ty) (vis : Vis) :
    cmp own (.named n a b) src vis =
      if kind0 b == .ptr && (kind src == .prim .null || kind src == .ref) then cmp false b src vis
      else if kind0 b != .union || nominal src then
        match src with
        | .named m c _ => if n == m then cmpL a c vis else (false, vis)
        | _ => (false, vis)
      else if vis.contains n then (true, vis)
      else cmp false b src (n :: vis) := by
  cases src <;> rfl

theorem means_core {t : Ty} : Means t (core t) := by
  cases t <;> first | exact .plain _ | exact .named ..

theorem means_of_kind_any {s : Ty} (h : canAny s = true) :
    ¬ Means s (.prim .any) ∧ ¬ Means s (.prim .void) := by
  constructor <;> (intro hm; cases hm <;> simp [canAny, kind, core, kind0] at h)

theorem means_of_union {s : Ty} (h : canUnion s = true) :
    ¬ Means s (.prim .any) ∧ ¬ Means s (.prim .void) ∧ ∀ g ss, ¬ Means s (.union g ss) := by
  refine ⟨?_, ?_, ?_⟩
  · intro hm; cases hm <;> simp [canUnion, kind, core, kind0] at h
  · intro hm; cases hm <;> simp [canUnion, kind, core, kind0] at h
  · intro g ss hm; cases hm <;> simp [canUnion, kind, core, kind0] at h

theorem offers_of {impl : String → Ty → Bool} {s i : Ty} (hc : canIface s = true)
    (h : asIface impl s i = true) : ∃ m, Offers s m ∧ impl m i = true := by
  unfold asIface at h
  cases e : core s with
  | ref x =>
    simp only [e] at h
    cases x <;> simp at h
    exact ⟨_, .ref (by rw [← e]; exact means_core), h⟩
  | ptr x =>
    simp only [e] at h
    cases x <;> simp at h
    exact ⟨_, .ptr (by rw [← e]; exact means_core), h⟩
  | prim p =>
    simp only [e] at h
    cases s <;> simp at h
    simp [core] at e
    subst e
    refine ⟨_, .direct ?_ (by simp), h⟩
    cases p <;> simp [canIface, kind, core, kind0, Ty.solid] at hc ⊢
  | _ =>
    simp only [e] at h
    cases s <;> simp at h
    simp [core] at e
    subst e
    refine ⟨_, .direct ?_ (by simp), h⟩
    first
      | rfl
      | (simp [canIface, kind, core, kind0] at hc; done)

/-- Where the conversions leave the source as it is. -/
theorem accept_plain {impl : String → Ty → Bool} {t s : Ty} (h : accept impl t s = true)
    (h1 : kind t ≠ .iface) (h2 : kind t ≠ .union) (h3 : kind t = .prim .any → canAny s = false) :
    compare t s = true := by
  have e2 : nullableIface t = none := by
    unfold nullableIface
    unfold kind at h2
    split
    · rename_i e; rw [e] at h2; simp [kind0] at h2
    · rfl
  have e4 : ∀ s, stepUnion t s = some s := by
    intro s
    unfold stepUnion
    unfold kind at h2
    split
    · rename_i e; rw [e] at h2; simp [kind0] at h2
    · rfl
  have e3 : stepAny t s = s := by
    unfold stepAny
    by_cases e : kind t = .prim .any
    · simp [h3 e]
    · simp [e]
  simpa [accept, stepIface, h1, stepNullable, e2, e3, e4, finish] using h

/-- The comparison of a union with something that is neither a union nor convertible. -/
theorem compare_union_other {t s : Ty} {f : Bool} {ds : List Ty} (ht : Means t (.union f ds))
    (ha : t.argsRigid = true) (hs : kind s ≠ .union) (h : compare t s = true) : Same t s := by
  cases ht with
  | plain =>
    simp only [compare, cmp] at h
    split at h
    · simp at h
    · split at h
      · rename_i e; simp [kind, e, kind0] at hs
      · simp at h
  | named n a =>
    simp only [compare, cmp, kind0] at h
    simp at h
    split at h
    · split at h
      · rename_i m c b' hn
        split at h
        · rename_i e; subst e
          have : cmpL a c [] = (true, (cmpL a c []).2) := Prod.ext h rfl
          have := cmpL_rigid a c [] _ ha this
          refine .named n _ b' ?_ this.2
          cases b' <;> simp [kind, core, kind0, Ty.lists] at hs ⊢
        · simp at h
      · simp at h
    · split at h
      · rename_i e; simp [kind, e, kind0] at hs
      · simp at h

theorem canUnion_false {s : Ty} (h : canUnion s = false) :
    kind s = .union ∨ kind s = .prim .any ∨ kind s = .prim .void := by
  unfold canUnion at h
  split at h <;> simp_all

theorem compare_union {t s : Ty} {f : Bool} {ds : List Ty} (ht : Means t (.union f ds))
    (hr : rigidL ds = true) (hs : kind s = .union) (h : compare t s = true) : Fits t s := by
  have hcs : ∃ g ss, core s = .union g ss := by
    unfold kind at hs
    cases e : core s <;> rw [e] at hs <;> simp [kind0] at hs
    exact ⟨_, _, rfl⟩
  obtain ⟨g, ss, e⟩ := hcs
  have hm : Means s (.union g ss) := by rw [← e]; exact means_core
  have hnom : nominal s = false := by
    cases s <;> simp [nominal]
    rename_i b
    simp [core] at e
    simp [e, kind0]
  refine .more ht hm ?_
  cases ht with
  | plain =>
    simp only [compare, cmp, hnom, e] at h
    have h : (eachIn (fun s vis => cmpAny ds s vis) ss []).1 = true := by simpa using h
    exact each_rigid hr ss [] _ (Prod.ext h rfl)
  | named n a =>
    simp only [compare, cmp, kind0, hnom, e] at h
    have h : (eachIn (fun s vis => cmpAny ds s vis) ss [n]).1 = true := by simpa using h
    exact each_rigid hr ss [n] _ (Prod.ext h rfl)

theorem rigidL_mem {t : Ty} {ts : List Ty} (h : t ∈ ts) (hr : rigidL ts = true) :
    t.rigid = true := by
  induction ts with
  | nil => cases h
  | cons x xs ih =>
    simp only [rigidL, Bool.and_eq_true] at hr
    rcases List.mem_cons.1 h with rfl | h
    · exact hr.1
    · exact ih h hr.2

theorem contains_one {impl : String → Ty → Bool} {t s : Ty} {f : Bool} {ds : List Ty}
    (ht : Means t (.union f ds)) (hds : ∀ d ∈ ds, d.rigid = true ∨ d.isIface = true)
    (hi : ∀ m c, ¬ Means s (.iface m c)) (hc : canUnion s = true) (h : contains ds s = true) :
    Ok impl t s := by
  obtain ⟨m1, m2, m3⟩ := means_of_union hc
  simp only [contains, List.any_eq_true] at h
  obtain ⟨d, hd, hcmp⟩ := h
  rcases hds d hd with hr | hif
  · exact .one ht m1 m2 m3 hd (compare_rigid hr hcmp)
  · exfalso
    cases d <;> simp [Ty.isIface] at hif
    simp only [compare, cmp] at hcmp
    split at hcmp
    · simp at hcmp
    · simp [kind] at hcmp
      cases e : core s <;> rw [e] at hcmp <;> simp [kind0] at hcmp
      exact hi _ _ (by rw [← e]; exact means_core)

theorem accept_sound {impl : String → Ty → Bool} {t s : Ty} (hp : Plain t s)
    (h : accept impl t s = true) : Ok impl t s := by
  cases hp with
  | rigid hr =>
    have h1 : kind t ≠ .iface := by
      cases t <;> simp [Ty.rigid, kind, core, kind0] at hr ⊢
      rename_i b; cases b <;> simp at hr ⊢
    have h2 : kind t ≠ .union := by
      cases t <;> simp [Ty.rigid, kind, core, kind0] at hr ⊢
      rename_i b; cases b <;> simp at hr ⊢
    by_cases hk : kind t = .prim .any ∧ canAny s = true
    · obtain ⟨m1, m2⟩ := means_of_kind_any hk.2
      refine .any ?_ m1 m2
      have : core t = .prim .any := by
        have := hk.1
        unfold kind at this
        cases e : core t <;> rw [e] at this <;> simp [kind0] at this
        rw [this]
      rw [← this]; exact means_core
    · refine .fits (.same (compare_rigid hr (accept_plain h h1 h2 ?_)))
      intro e
      cases hc : canAny s
      · rfl
      · exact absurd ⟨e, hc⟩ hk
  | wild hw =>
    have hc : compare t s = true := by
      rcases hw with rfl | rfl | rfl | rfl <;>
        exact accept_plain h (by simp [kind, core, kind0]) (by simp [kind, core, kind0])
          (by simp [kind, core, kind0])
    have hm := means_core (t := s)
    rcases hw with rfl | rfl | rfl | rfl
    · exact .fits (.all s)
    · simp only [compare, cmp] at hc
      split at hc
      · rename_i e
        simp [kind] at e
        cases e' : core s <;> rw [e'] at e <;> simp [kind0] at e
        rw [e'] at hm
        exact .fits (.fn hm)
      · split at hc
        · simp at hc
        · rename_i hn
          simp at hc hn
          have e := not_named hn (by simp [hc])
          simp only [kind, e] at hc
          cases s <;> simp [kind0] at hc
          exact .fits (.same .fnT)
    · simp only [compare, cmp] at hc
      split at hc
      · rename_i e
        simp [kind] at e
        cases e' : core s <;> rw [e'] at e <;> simp [kind0, isInteger] at e
        rename_i p
        rw [e'] at hm
        exact .fits (.integer p (by cases p <;> simp [Prim.whole] at e ⊢) hm)
      · split at hc
        · simp at hc
        · rename_i hn
          simp at hc hn
          have e := not_named hn (by simp [hc])
          simp only [kind, e] at hc
          cases s <;> simp [kind0] at hc
          exact .fits (.same .integerT)
    · simp only [compare, cmp] at hc
      split at hc
      · rename_i e
        simp [kind] at e
        cases e' : core s <;> rw [e'] at e <;> simp [kind0, isFloat] at e
        rename_i p
        rw [e'] at hm
        exact .fits (.floater p (by cases p <;> simp [Prim.floating] at e ⊢) hm)
      · split at hc
        · simp at hc
        · rename_i hn
          simp at hc hn
          have e := not_named hn (by simp [hc])
          simp only [kind, e] at hc
          cases s <;> simp [kind0] at hc
          exact .fits (.same .floaterT)
  | ptr hm ha hr =>
    rename_i x
    have hc : compare t s = true := by
      cases hm <;> exact accept_plain h (by simp [kind, core, kind0]) (by simp [kind, core, kind0])
          (by simp [kind, core, kind0])
    have hms := means_core (t := s)
    have body : ∀ own vis, (cmp own (.ptr x) s vis).1 = true →
        (core s = .prim .null ∨ (∃ y, core s = .ref y ∧ Same x y) ∨
          ∃ y, s = .ptr y ∧ Same x y) := by
      intro own vis h
      simp only [cmp] at h
      split at h
      · rename_i e; exact .inl e
      · rename_i y e
        exact .inr (.inl ⟨y, e, (cmp_rigid x y vis _ hr (Prod.ext h rfl)).2⟩)
      · rename_i y e
        split at h
        · simp at h
        · rename_i hn
          exact .inr (.inr ⟨y, src_of (by simpa using hn) e (by simp [kind0]),
            (cmp_rigid x y vis _ hr (Prod.ext h rfl)).2⟩)
      · simp at h
    cases hm with
    | plain =>
      rcases body true [] hc with e | ⟨y, e, hs⟩ | ⟨y, rfl, hs⟩
      · rw [e] at hms; exact .fits (.ptrNull (.plain _) hms)
      · rw [e] at hms; exact .fits (.ptrRef (.plain _) hms hs)
      · exact .fits (.same (.ptr hs))
    | named n a =>
      have hq : (cmp true (.named n a (.ptr x)) s []).1 = true := hc
      rw [cmp_named] at hq
      split at hq
      · rename_i hk
        rcases body false [] hq with e | ⟨y, e, hs⟩ | ⟨y, rfl, hs⟩
        · rw [e] at hms; exact .fits (.ptrNull (.named ..) hms)
        · rw [e] at hms; exact .fits (.ptrRef (.named ..) hms hs)
        · simp [kind, core, kind0] at hk
      · simp [kind0] at hq
        split at hq
        · rename_i _ m c b' hk
          split at hq
          · rename_i e; subst e
            have := cmpL_rigid a c [] _ ha (Prod.ext hq rfl)
            exact .fits (.same (.named n _ b' (by simp [Ty.lists]) this.2))
          · simp at hq
        · simp at hq
  | union hm ha hr =>
    rename_i f ds
    have hds : ∀ d ∈ ds, d.rigid = true ∨ d.isIface = true := fun d hd => .inl (rigidL_mem hd hr)
    have e2 : nullableIface t = none := by
      cases e : nullableIface t with
      | none => rfl
      | some i =>
        obtain ⟨n, a, ds', _, hm'⟩ := nullableIface_some e
        cases hm <;> cases hm' <;> simp [rigidL, Ty.rigid] at hr
    have hh : finish t (stepUnion t s) = true := by
      cases hm <;>
        simpa [accept, stepIface, stepNullable, e2, stepAny, kind, core, kind0] using h
    have hcore : core t = .union f ds := by cases hm <;> rfl
    simp only [stepUnion, hcore, finish] at hh
    cases hc : canUnion s with
    | true =>
      simp only [hc] at hh
      cases hcon : contains ds s with
      | false => simp [hcon] at hh
      | true =>
        obtain ⟨m1, m2, m3⟩ := means_of_union hc
        simp only [contains, List.any_eq_true] at hcon
        obtain ⟨d, hd, hcmp⟩ := hcon
        exact .one hm m1 m2 m3 hd (compare_rigid (rigidL_mem hd hr) hcmp)
    | false =>
      simp [hc] at hh
      by_cases hk : kind s = .union
      · exact .fits (compare_union hm hr hk hh)
      · exact .fits (.same (compare_union_other hm ha hk hh))
  | iface hi =>
    rename_i n a
    cases hc : canIface s with
    | true =>
      simp only [accept, stepIface, hc] at h
      cases ha : asIface impl s (.iface n a) with
      | false => simp [ha, kind, core, kind0] at h
      | true =>
        obtain ⟨m, ho, him⟩ := offers_of hc ha
        exact .iface ho him
    | false =>
      have h : compare (.iface n a) s = true := by
        simpa [accept, stepIface, hc, stepNullable, nullableIface, stepAny, stepUnion, kind, core,
          kind0, finish] using h
      exfalso
      simp only [compare, cmp] at h
      split at h
      · simp at h
      · simp [kind] at h
        cases e : core s <;> rw [e] at h <;> simp [kind0] at h
        exact hi _ _ (by rw [← e]; exact means_core)
  | mixed hm ha hds hi hu =>
    rename_i f ds
    have hcore : core t = .union f ds := by cases hm <;> rfl
    have hk : kind t = .union := by simp [kind, hcore, kind0]
    have rest : ∀ s', s' = s → finish t (stepUnion t s') = true → Ok impl t s := by
      intro s' e hh
      subst e
      simp only [stepUnion, hcore, finish] at hh
      cases hc : canUnion s' with
      | true =>
        simp only [hc] at hh
        cases hcon : contains ds s' with
        | false => simp [hcon] at hh
        | true => exact contains_one hm hds hi hc hcon
      | false =>
        simp [hc] at hh
        refine .fits (.same (compare_union_other hm ha ?_ hh))
        intro hk
        unfold kind at hk
        cases e : core s' <;> rw [e] at hk <;> simp [kind0] at hk
        exact hu _ _ (by rw [← e]; exact means_core)
    simp only [accept, stepIface, hk, stepAny] at h
    simp at h
    unfold stepNullable at h
    cases e : nullableIface t with
    | none =>
      simp only [e] at h
      exact rest s rfl h
    | some i =>
      obtain ⟨n, a, ds', rfl, hm'⟩ := nullableIface_some e
      simp only [e] at h
      cases hc : canIface s with
      | false =>
        simp [hc] at h
        exact rest s rfl h
      | true =>
        cases has : asIface impl s (.iface n a) with
        | false => simp [hc, has] at h
        | true =>
          obtain ⟨m, ho, him⟩ := offers_of hc has
          exact .nullable hm' ho him

end Nature.Types
