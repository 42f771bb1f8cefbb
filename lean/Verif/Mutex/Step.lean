import Verif.Mutex.NumStep
/-! The waiter-list invariant, the per-coroutine facts and the log. -/
namespace Nature.Mutex

def isPk (t : Th) : Prop := match t.pc with | .parked _ _ => True | _ => False

theorem Que.parked {s : St} (hq : Que s) {i : Nat} {th : Th} {w : Nat}
    (hi : s.ths[i]? = some th) (hr : 1 ≤ refP w th + refW w th) :
    ∃ t, s.ths[w]? = some t ∧ prk t = 1 ∧
      (s.q.count w : Int) = 0 ∧ tot (refP w) s.ths + tot (refW w) s.ths = 1 := by
  have h := hq.occ w
  have a := tot_ge (refP_nn w) hi
  have b := tot_ge (refW_nn w) hi
  have c : prk (t := ⟨.idle, false⟩) = 0 := rfl
  cases hw : s.ths[w]? with
  | none => rw [hw] at h; simp only at h; omega
  | some t =>
    rw [hw] at h; simp only at h
    have : prk t ≤ 1 := by unfold prk; split <;> omega
    exact ⟨t, rfl, by omega, by omega, by omega⟩

/-- A coroutine that reaches a list or a releaser is parked or about to be. -/
theorem prk_cases {t : Th} (h : prk t = 1) :
    (∃ a b, t.pc = .wPark a b) ∨ (∃ a b, t.pc = .parked a b) := by
  unfold prk at h
  split at h
  · exact .inl ⟨_, _, by assumption⟩
  · exact .inr ⟨_, _, by assumption⟩
  · omega

theorem get_set_ne {l : List Th} {i j : Nat} {b : Th} (h : i ≠ j) :
    (l.set i b)[j]? = l[j]? := by rw [List.getElem?_set]; simp [h]

theorem get_set_eq {l : List Th} {i : Nat} {a b : Th} (h : l[i]? = some a) :
    (l.set i b)[i]? = some b := by
  have : i < l.length := by
    rcases Nat.lt_or_ge i l.length with h1 | h1
    · exact h1
    · rw [List.getElem?_eq_none h1] at h; cases h
  rw [List.getElem?_set]; simp [this]

/-- One coroutine moves without touching the list or its references. -/
theorem que_same {s : St} {i : Nat} {t : Th} (hi : s.ths[i]? = some t) (t' : Th)
    (hp : ∀ w, refP w t' = refP w t) (hw : ∀ w, refW w t' = refW w t) (hk : prk t' = prk t)
    (ht : isPk t' → t'.ticket = true → isPk t ∧ t.ticket = true)
    (hx : (match t'.pc with | .wPark _ _ => True | _ => False) →
      (match t.pc with | .wPark _ _ => True | _ => False))
    (hq : Que s) (state sema wc : Int) (lk : Bool) (log : List Ev) :
    Que ⟨state, sema, wc, s.q, lk, s.ths.set i t', log⟩ := by
  have e1 : ∀ w, tot (refP w) (s.ths.set i t') = tot (refP w) s.ths := by
    intro w; rw [tot_set _ hi, hp]; omega
  have e2 : ∀ w, tot (refW w) (s.ths.set i t') = tot (refW w) s.ths := by
    intro w; rw [tot_set _ hi, hw]; omega
  constructor
  · intro w
    simp only [e1, e2]
    rw [hq.occ w]
    by_cases hiw : i = w
    · subst hiw; rw [get_set_eq hi, hi]; simp [hk]
    · rw [get_set_ne hiw]
  · intro w u hu hpk htk
    simp only [e1]
    by_cases hiw : i = w
    · subst hiw
      simp only [get_set_eq hi, Option.some.injEq] at hu
      subst hu
      obtain ⟨a, b⟩ := ht hpk htk
      exact hq.tick i t hi a b
    · simp only [get_set_ne hiw] at hu
      exact hq.tick w u hu hpk htk
  · intro w u hu hpk
    simp only [e1, e2]
    by_cases hiw : i = w
    · subst hiw
      simp only [get_set_eq hi, Option.some.injEq] at hu
      subst hu
      exact hq.pk i t hi (hx hpk)
    · simp only [get_set_ne hiw] at hu
      exact hq.pk w u hu hpk

macro "quetac" : tactic => `(tactic|
  (try simp only [St.go, St.ev, if_true, if_false, Bool.false_eq_true]
   refine que_same ‹_[_]? = some _› _ ?_ ?_ ?_ ?_ ?_ ‹Que _› _ _ _ _ _
   · intro w; simp only [refP, ‹Th.pc _ = _›]
   · intro w; simp only [refW, ‹Th.pc _ = _›]
   · simp only [prk, ‹Th.pc _ = _›]
   · simp [isPk, ‹Th.pc _ = _›]
   · simp [‹Th.pc _ = _›]))

theorem que_step {s s' : St} {i : Nat} {th : Th} {c : Choice}
    (hn : Num s) (hq : Que s) (hl : Loc s.state th) (hi : s.ths[i]? = some th)
    (h : stepTh s i th c = .next s') : Que s' := by
  cases hpc : th.pc
  all_goals simp only [stepTh, hpc] at h
  all_goals simp only [hpc, Loc] at hl
  case wPush st hd =>
    have hz := hq.occ i
    rw [hi] at hz
    simp only [prk, hpc] at hz
    have z1 := tot_nonneg (refP_nn i) s.ths
    have z2 := tot_nonneg (refW_nn i) s.ths
    cases h
    simp only [St.go]
    have e1 : ∀ w, tot (refP w) (s.ths.set i { th with pc := .wPark st hd }) =
        tot (refP w) s.ths := by intro w; rw [tot_set _ hi]; simp [refP, hpc]
    have e2 : ∀ w, tot (refW w) (s.ths.set i { th with pc := .wPark st hd }) =
        tot (refW w) s.ths := by intro w; rw [tot_set _ hi]; simp [refW, hpc]
    have e3 : ∀ w, (((if hd then i :: s.q else s.q ++ [i]).count w : Nat) : Int) =
        (s.q.count w : Int) + (if i = w then 1 else 0) := by
      intro w
      by_cases hiw : i = w
      · subst hiw; cases hd <;> simp
      · cases hd <;> simp [List.count_cons, hiw]
    constructor
    · intro w
      simp only [e1, e2, e3]
      by_cases hiw : i = w
      · subst hiw; rw [get_set_eq hi]; simp [prk]; omega
      · rw [get_set_ne hiw]; have := hq.occ w; simp [hiw]; omega
    · intro w u hu hpk htk
      simp only [e1, e3]
      by_cases hiw : i = w
      · subst hiw
        simp only [get_set_eq hi, Option.some.injEq] at hu
        subst hu; simp at hpk
      · simp only [get_set_ne hiw] at hu
        have := hq.tick w u hu hpk htk
        simp [hiw]; omega
    · intro w u hu hpk
      simp only [e1, e2]
      by_cases hiw : i = w
      · subst hiw; omega
      · simp only [get_set_ne hiw] at hu
        exact hq.pk w u hu hpk
  case wPark st hd =>
    cases h
    try simp only [St.go]
    refine que_same hi _ ?_ ?_ ?_ ?_ ?_ hq _ _ _ _ _
    · intro w; simp only [refP, hpc]
    · intro w; simp only [refW, hpc]
    · simp only [prk, hpc]
    · intro _ ht; simp [hl] at ht
    · simp
  case rPop =>
    split at h
    · cases h
    · rename_i v q hqq
      cases h
      simp only [St.go]
      have e1 : ∀ w, tot (refP w) (s.ths.set i { th with pc := .rDec v }) =
          tot (refP w) s.ths + (if v = w then 1 else 0) := by
        intro w; rw [tot_set _ hi]; simp [refP, hpc]
      have e2 : ∀ w, tot (refW w) (s.ths.set i { th with pc := .rDec v }) =
          tot (refW w) s.ths := by intro w; rw [tot_set _ hi]; simp [refW, hpc]
      have e3 : ∀ w, (s.q.count w : Int) = (q.count w : Int) + (if v = w then 1 else 0) := by
        intro w; rw [hqq]
        by_cases hiw : v = w
        · subst hiw; simp
        · simp [List.count_cons, hiw]
      have e4 : ∀ u, u = ({ th with pc := PC.rDec v } : Th) → prk u = 0 := by
        intro u hu; subst hu; rfl
      constructor
      · intro w
        have := hq.occ w
        simp only [e1, e2]
        by_cases hiw : i = w
        · subst hiw; rw [get_set_eq hi]; rw [hi] at this; have := e3 i
          simp only [prk, hpc] at *; omega
        · rw [get_set_ne hiw]; have := e3 w; omega
      · intro w u hu hpk htk
        simp only [e1]
        by_cases hiw : i = w
        · subst hiw
          simp only [get_set_eq hi, Option.some.injEq] at hu
          subst hu; simp at hpk
        · simp only [get_set_ne hiw] at hu
          have := hq.tick w u hu hpk htk
          have := e3 w
          omega
      · intro w u hu hpk
        simp only [e1, e2]
        by_cases hiw : i = w
        · subst hiw
          simp only [get_set_eq hi, Option.some.injEq] at hu
          subst hu; simp at hpk
        · simp only [get_set_ne hiw] at hu
          have := hq.pk w u hu hpk
          have g1 := tot_ge inl_nn hu
          have g2 := tot_ge pop_nn hi
          obtain ⟨-,-,-,-,-,g3,g4,-,-,g5,-,-⟩ := dom0 s.ths
          have g6 := hn.lock
          have g7 : inl u = 1 := by
            unfold inl; split at hpk
            · rename_i he; rw [he]
            · exact hpk.elim
          simp only [pop, hpc] at g2
          have g8 : b2i s.lk ≤ 1 := by unfold b2i; split <;> omega
          omega
  case rSem v =>
    split at h
    · cases h
      simp only [St.go]
      have e1 : ∀ w, tot (refP w) (s.ths.set i { th with pc := .rWake v }) =
          tot (refP w) s.ths - (if v = w then 1 else 0) := by
        intro w; rw [tot_set _ hi]; simp [refP, hpc]
      have e2 : ∀ w, tot (refW w) (s.ths.set i { th with pc := .rWake v }) =
          tot (refW w) s.ths + (if v = w then 1 else 0) := by
        intro w; rw [tot_set _ hi]; simp [refW, hpc]
      constructor
      · intro w
        have := hq.occ w
        simp only [e1, e2]
        by_cases hiw : i = w
        · subst hiw; rw [get_set_eq hi]; rw [hi] at this
          simp only [prk, hpc] at *; omega
        · rw [get_set_ne hiw]; omega
      · intro w u hu hpk htk
        simp only [e1]
        by_cases hiw : i = w
        · subst hiw
          simp only [get_set_eq hi, Option.some.injEq] at hu
          subst hu; simp at hpk
        · simp only [get_set_ne hiw] at hu
          have := hq.tick w u hu hpk htk
          have g := tot_ge (refP_nn w) hi
          simp only [refP, hpc] at g
          split at g
          · omega
          · rename_i hvw; simp [hvw]; omega
      · intro w u hu hpk
        simp only [e1, e2]
        by_cases hiw : i = w
        · subst hiw
          simp only [get_set_eq hi, Option.some.injEq] at hu
          subst hu; simp at hpk
        · simp only [get_set_ne hiw] at hu
          have := hq.pk w u hu hpk
          omega
    · cases h; quetac
  case rTick v =>
    have hpp := hq.parked (w := v) hi (by simp [refP, refW, hpc])
    obtain ⟨t, hv, hprk, hcz, hsum⟩ := hpp
    have g := tot_ge (refP_nn v) hi
    have g' := tot_nonneg (refW_nn v) s.ths
    simp only [refP, hpc, if_true] at g
    have hne : v ≠ i := by
      intro e; subst e; rw [hi] at hv; cases hv; simp [prk, hpc] at hprk
    simp only [hv] at h
    cases h
    simp only [St.go]
    have hi2 : (s.ths.set v { t with ticket := true })[i]? = some th := by
      rw [get_set_ne hne]; exact hi
    have e1 : ∀ w, tot (refP w) ((s.ths.set v { t with ticket := true }).set i
        { th with pc := .rWake v }) = tot (refP w) s.ths - (if v = w then 1 else 0) := by
      intro w; rw [tot_set _ hi2, tot_set _ hv]
      have : refP w { t with ticket := true } = refP w t := rfl
      simp [refP, hpc]
    have e2 : ∀ w, tot (refW w) ((s.ths.set v { t with ticket := true }).set i
        { th with pc := .rWake v }) = tot (refW w) s.ths + (if v = w then 1 else 0) := by
      intro w; rw [tot_set _ hi2, tot_set _ hv]
      have : refW w { t with ticket := true } = refW w t := rfl
      simp [refW, hpc]
    constructor
    · intro w
      have := hq.occ w
      simp only [e1, e2]
      by_cases hiw : i = w
      · subst hiw; rw [get_set_eq hi2]; rw [hi] at this
        simp only [prk, hpc] at *; omega
      · rw [get_set_ne hiw]
        by_cases hvw : v = w
        · subst hvw; rw [get_set_eq hv]; rw [hv] at this
          simp only [prk] at *; simp; omega
        · rw [get_set_ne hvw]; simp [hvw]; omega
    · intro w u hu hpk htk
      simp only [e1]
      by_cases hiw : i = w
      · subst hiw
        simp only [get_set_eq hi2, Option.some.injEq] at hu
        subst hu; simp at hpk
      · simp only [get_set_ne hiw] at hu
        by_cases hvw : v = w
        · subst hvw; simp; omega
        · simp only [get_set_ne hvw] at hu
          have := hq.tick w u hu hpk htk
          simp [hvw]; omega
    · intro w u hu hpk
      simp only [e1, e2]
      by_cases hiw : i = w
      · subst hiw
        simp only [get_set_eq hi2, Option.some.injEq] at hu
        subst hu; simp at hpk
      · simp only [get_set_ne hiw] at hu
        by_cases hvw : v = w
        · subst hvw
          simp only [get_set_eq hv, Option.some.injEq] at hu
          subst hu
          have := hq.pk v t hv hpk
          omega
        · simp only [get_set_ne hvw] at hu
          have := hq.pk w u hu hpk
          omega
  case rWake v =>
    have hpp := hq.parked (w := v) hi (by simp [refP, refW, hpc])
    obtain ⟨t, hv, hprk, hcz, hsum⟩ := hpp
    have hne : v ≠ i := by
      intro e; subst e; rw [hi] at hv; cases hv; simp [prk, hpc] at hprk
    simp only [hv] at h
    split at h
    · rename_i st hd hpt
      cases h
      simp only [St.go]
      have hi2 : (s.ths.set v { t with pc := .wRetry st hd })[i]? = some th := by
        rw [get_set_ne hne]; exact hi
      have e1 : ∀ w, tot (refP w) ((s.ths.set v { t with pc := .wRetry st hd }).set i
          { th with pc := .idle }) = tot (refP w) s.ths := by
        intro w; rw [tot_set _ hi2, tot_set _ hv]; simp [refP, hpc, hpt]
      have e2 : ∀ w, tot (refW w) ((s.ths.set v { t with pc := .wRetry st hd }).set i
          { th with pc := .idle }) = tot (refW w) s.ths - (if v = w then 1 else 0) := by
        intro w; rw [tot_set _ hi2, tot_set _ hv]; simp [refW, hpc, hpt]
      constructor
      · intro w
        have := hq.occ w
        simp only [e1, e2]
        by_cases hiw : i = w
        · subst hiw; rw [get_set_eq hi2]; rw [hi] at this
          simp only [prk, hpc] at *; simp [hne]; omega
        · rw [get_set_ne hiw]
          by_cases hvw : v = w
          · subst hvw; rw [get_set_eq hv]; rw [hv] at this
            simp only [prk, hpt] at *; simp; omega
          · rw [get_set_ne hvw]; simp [hvw]; omega
      · intro w u hu hpk htk
        simp only [e1]
        by_cases hiw : i = w
        · subst hiw
          simp only [get_set_eq hi2, Option.some.injEq] at hu
          subst hu; simp at hpk
        · simp only [get_set_ne hiw] at hu
          by_cases hvw : v = w
          · subst hvw
            simp only [get_set_eq hv, Option.some.injEq] at hu
            subst hu; simp at hpk
          · simp only [get_set_ne hvw] at hu
            exact hq.tick w u hu hpk htk
      · intro w u hu hpk
        simp only [e1, e2]
        by_cases hiw : i = w
        · subst hiw
          simp only [get_set_eq hi2, Option.some.injEq] at hu
          subst hu; simp at hpk
        · simp only [get_set_ne hiw] at hu
          by_cases hvw : v = w
          · subst hvw
            simp only [get_set_eq hv, Option.some.injEq] at hu
            subst hu; simp at hpk
          · simp only [get_set_ne hvw] at hu
            have := hq.pk w u hu hpk
            simp [hvw]; omega
    · cases h
  all_goals
    repeat' (split at h)
    all_goals first | (cases h; quetac) | (cases h; split <;> quetac) | cases h


/-- A referenced coroutine is parked. -/
theorem Que.refParked {s : St} (hq : Que s) {i : Nat} {th : Th} {w : Nat}
    (hi : s.ths[i]? = some th) (hr : 1 ≤ refP w th + refW w th) :
    ∃ t a b, s.ths[w]? = some t ∧ t.pc = .parked a b ∧ w ≠ i := by
  obtain ⟨t, ht, hp, -, hs⟩ := hq.parked hi hr
  rcases prk_cases hp with ⟨a, b, h⟩ | ⟨a, b, h⟩
  · have := hq.pk w t ht (by rw [h]; trivial)
    omega
  · refine ⟨t, a, b, ht, h, ?_⟩
    intro e
    subst e
    rw [hi] at ht
    cases ht
    simp [refP, refW, h] at hr

theorem num_tick {s s' : St} {i : Nat} {th : Th} {c : Choice} {v : Nat}
    (hn : Num s) (hq : Que s) (hi : s.ths[i]? = some th) (hpc : th.pc = .rTick v)
    (h : stepTh s i th c = .next s') : Num s' := by
  obtain ⟨t, a, b, hv, ht, hne⟩ := hq.refParked (w := v) hi (by simp [refP, refW, hpc])
  have htk : t.ticket = false := by
    rcases Bool.eq_false_or_eq_true t.ticket with h1 | h1
    · have h2 := hq.tick v t hv (by rw [ht]; trivial) h1
      have h3 := tot_ge (refP_nn v) hi
      simp only [refP, hpc, if_true] at h3
      omega
    · exact h1
  simp only [stepTh, hpc, hv] at h
  cases h
  have hi2 : (s.ths.set v { t with ticket := true })[i]? = some th := by
    rw [get_set_ne hne]; exact hi
  have e : ∀ f : Th → Int, f { t with ticket := true } - f t + (f { th with pc := .rWake v } - f th) = 0 →
      tot f ((s.ths.set v { t with ticket := true }).set i { th with pc := .rWake v }) = tot f s.ths := by
    intro f hf; rw [tot_set _ hi2, tot_set _ hv]; omega
  have z1 := e hold (by simp [hold, ht, hpc])
  have z2 := e awk (by simp [awk, ht, hpc])
  have z3 := e gr (by simp [gr, ht, hpc, htk])
  have z4 := e hnd (by simp [hnd, ht, hpc])
  have z5 := e wtg (by simp [wtg, ht, hpc])
  have z6 := e psh (by simp [psh, ht, hpc])
  have z7 := e dw2 (by simp [dw2, ht, hpc])
  have z8 := e inl (by simp [inl, ht, hpc])
  have z9 := e pop (by simp [pop, ht, hpc])
  have z10 := e as2 (by simp [as2, ht, hpc])
  have z11 := e act (by simp [act, ht, hpc])
  have z12 := e unl (by simp [unl, ht, hpc])
  obtain ⟨n1, n2, n3, n4, n5, n6, n7, n8⟩ := hn
  constructor <;> simp only [St.go, z1, z2, z3, z4, z5, z6, z7, z8, z9, z10, z11, z12] <;> assumption

theorem num_wake {s s' : St} {i : Nat} {th : Th} {c : Choice} {v : Nat}
    (hn : Num s) (hq : Que s) (hi : s.ths[i]? = some th) (hpc : th.pc = .rWake v)
    (h : stepTh s i th c = .next s') : Num s' := by
  obtain ⟨t, a, b, hv, ht, hne⟩ := hq.refParked (w := v) hi (by simp [refP, refW, hpc])
  simp only [stepTh, hpc, hv, ht] at h
  cases h
  have hi2 : (s.ths.set v { t with pc := .wRetry a b })[i]? = some th := by
    rw [get_set_ne hne]; exact hi
  have e : ∀ f : Th → Int, tot f ((s.ths.set v { t with pc := .wRetry a b }).set i { th with pc := .idle }) =
      tot f s.ths + (f { t with pc := .wRetry a b } - f t + (f { th with pc := .idle } - f th)) := by
    intro f; rw [tot_set _ hi2, tot_set _ hv]; omega
  have z1 := e hold
  have z2 := e awk
  have z3 := e gr
  have z4 := e hnd
  have z5 := e wtg
  have z6 := e psh
  have z7 := e dw2
  have z8 := e inl
  have z9 := e pop
  have z10 := e as2
  have z11 := e act
  have z12 := e unl
  have := (dom0 s.ths).2.2.2.2.2.2.2.2.2.2.1
  simp [hold, awk, gr, hnd, wtg, psh, dw2, inl, pop, as2, act, unl, ht, hpc] at z1 z2 z3 z4 z5 z6 z7 z8 z9 z10 z11 z12
  obtain ⟨n1, n2, n3, n4, n5, n6, n7, n8⟩ := hn
  constructor <;> simp only [St.go, z1, z2, z3, z4, z5, z6, z7, z8, z9, z10, z11, z12] <;>
    first | assumption | omega

/-! ### Locals -/

theorem loc_of {s : St} {i : Nat} {t : Th} (hi : s.ths[i]? = some t) (t' : Th) (state : Int)
    (hl : ∀ (j : Nat) u, s.ths[j]? = some u → Loc s.state u) (ht : Loc state t')
    (hm : cnt s.state ≤ cnt state ∨ tot hnd s.ths ≤ hnd t) :
    ∀ (j : Nat) u, (s.ths.set i t')[j]? = some u → Loc state u := by
  intro j u hu
  by_cases hij : i = j
  · subst hij
    simp only [get_set_eq hi, Option.some.injEq] at hu
    subst hu; exact ht
  · rw [get_set_ne hij] at hu
    have h1 := hl j u hu
    unfold Loc at h1 ⊢
    split
    all_goals (rename_i he; simp only [he] at h1)
    all_goals first | exact h1 | skip
    refine ⟨h1.1, h1.2.1, h1.2.2.1, ?_⟩
    rcases hm with hm | hm
    · omega
    · have := tot_ge2 hnd_nn hij hi hu
      have h3 : hnd u = 1 := by simp [hnd, he]
      omega

end Nature.Mutex
