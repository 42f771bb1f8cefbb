import Verif.Mutex.Step
/-! Preservation of the whole invariant, and the assertions. -/
namespace Nature.Mutex

theorem le_tot_awk {s : St} (hn : Num s) (h : 1 ≤ tot awk s.ths) : isW s.state = true := by
  have := hn.core; have := dom0 s.ths; unfold Core at *
  have := hn.semaNN
  exact isW_t.2 (by omega)

macro "lo" t:term : tactic => `(tactic|
  ((try simp only [St.go, St.ev]); refine loc_of ‹_[_]? = some _› _ _ ‹_› $t (.inl (Int.le_refl _))))

theorem loc_step {s s' : St} {i : Nat} {th : Th} {c : Choice}
    (hn : Num s) (hq : Que s) (hl : ∀ (j : Nat) u, s.ths[j]? = some u → Loc s.state u)
    (hi : s.ths[i]? = some th) (h : stepTh s i th c = .next s') :
    ∀ (j : Nat) u, s'.ths[j]? = some u → Loc s'.state u := by
  have h0 := hl i th hi
  have d0 := dom0 s.ths
  have d := dom hi
  have n2 := hn.semaNN
  have hc := hn.core
  unfold Core at hc
  cases hpc : th.pc
  all_goals simp only [stepTh, hpc] at h
  all_goals simp only [hpc, Loc] at h0
  case idle =>
    cases h
    split <;> lo (by simp [Loc])
  case lockFast =>
    split at h <;> cases h
    · try simp only [St.go, St.ev]
      refine loc_of hi _ _ hl (by simp [Loc]) (.inl ?_)
      rename_i he
      simp [cnt, he]
    · lo (by simp [Loc])
  case reload a b w =>
    cases h
    try simp only [St.go, St.ev]
    refine loc_of hi _ _ hl ?_ (.inl (Int.le_refl _))
    simp only [Loc]
    refine ⟨h0, ?_⟩
    intro ha
    subst ha
    simp only [awk, hpc] at d
    exact le_tot_awk hn d.2.1
  case loop old aw st ws =>
    split at h
    · split at h
      · rename_i hc'
        simp only [Bool.and_eq_true, Bool.not_eq_true', decide_eq_true_eq] at hc'
        obtain ⟨⟨⟨ha, hw⟩, h8⟩, he⟩ := hc'
        subst he
        cases h
        try simp only [St.go, St.ev]
        refine loc_of hi _ _ hl (by simp [Loc]) (.inl ?_)
        simp only [cnt, setW, hw]
        simp only [Bool.false_eq_true, if_false]
        omega
      · cases h
        lo (by simpa [Loc] using h0.1)
    · split at h
      · cases h
      · split at h
        · rename_i he
          subst he
          have key : cnt s.state ≤ cnt (if aw then clrW (lockNew s.state st) else lockNew s.state st) := by
            have hWw := isW_lockNew s.state st
            have h1 : s.state ≤ lockNew s.state st := by
              simp only [lockNew, setL, setS]
              repeat' split
              all_goals omega
            have h2 : cnt s.state ≤ cnt (lockNew s.state st) := by simp only [cnt]; omega
            split
            · rename_i ha
              have hW := h0.2 ha
              rw [hW] at hWw
              have hW' := isW_t.1 hWw
              simp only [clrW, hWw, if_true]
              simp only [cnt] at *
              omega
            · exact h2
          split at h
          · cases h
            (try simp only [St.go, St.ev]); exact loc_of hi _ _ hl (by simp [Loc]) (.inl key)
          · cases h
            (try simp only [St.go, St.ev]); exact loc_of hi _ _ hl (by simp [Loc]) (.inl key)
        · cases h
          lo (by simpa [Loc] using h0.1)
  case wRetry =>
    split at h
    · cases h; lo (by simp [Loc])
    · rename_i ht
      split at h
      · cases h; lo (by simpa [Loc] using ht)
      · cases h; lo (by simp [Loc])
  case tok st =>
    simp only [gr, wtg, hpc] at d
    split at h
    · rename_i hS
      have hS' := isS_t.1 hS
      cases h
      try simp only [St.go, St.ev]
      refine loc_of hi _ _ hl ?_ (.inl (Int.le_refl _))
      simp only [Loc]
      exact ⟨isL_f.2 (by omega), isW_f.2 (by omega), by simp only [cnt]; omega, Int.le_refl _⟩
    · rename_i hS
      have hS' := isS_f.1 (by simpa using hS)
      cases h
      try simp only [St.go, St.ev]
      refine loc_of hi _ _ hl ?_ (.inl (Int.le_refl _))
      simp only [Loc]
      exact ⟨fun _ => trivial, fun _ => isW_t.2 (by omega)⟩
  case hand old st =>
    simp only [hnd, hpc] at d
    split at h
    · cases h
    · cases h
      try simp only [St.go, St.ev]
      refine loc_of hi _ _ hl (by simp [Loc]) (.inr ?_)
      simp only [hnd, hpc]
      omega
  case crit =>
    simp only [hold, hpc] at d
    cases h
    try simp only [St.go, St.ev]
    refine loc_of hi _ _ hl ?_ (.inl ?_)
    · simp only [Loc]; exact isL_f.2 (by omega)
    · simp only [cnt]; omega
  case tryCas old =>
    split at h
    · cases h; lo (by simp [Loc])
    · split at h
      · rename_i he
        subst he
        cases h
        try simp only [St.go, St.ev]
        refine loc_of hi _ _ hl (by simp [Loc]) (.inl ?_)
        simp only [cnt, setL]; split <;> omega
      · cases h; lo (by simp [Loc])
  case uLoop old =>
    split at h
    · cases h; lo (by simp [Loc])
    · rename_i hb
      simp only [Bool.or_eq_true, decide_eq_true_eq, isL_t, isW_t, isS_t, not_or] at hb
      split at h
      · rename_i he
        subst he
        cases h
        try simp only [St.go, St.ev]
        refine loc_of hi _ _ hl (by simp [Loc]) (.inr ?_)
        simp only [hnd, hpc]
        omega
      · cases h; lo (by simp [Loc])
  case rTick v =>
    obtain ⟨t, a, b, hv, ht, hne⟩ := hq.refParked (w := v) hi (by simp [refP, refW, hpc])
    simp only [hv] at h
    cases h
    have h1 : ∀ (j : Nat) u, (s.ths.set v { t with ticket := true })[j]? = some u → Loc s.state u :=
      loc_of hv _ _ hl (by simp [Loc, ht]) (.inl (Int.le_refl _))
    have hi2 : (s.ths.set v { t with ticket := true })[i]? = some th := by
      rw [get_set_ne hne]; exact hi
    exact loc_of (s := { s with ths := s.ths.set v { t with ticket := true } }) hi2 _ _ h1
      (by simp [Loc]) (.inl (Int.le_refl _))
  case rWake v =>
    obtain ⟨t, a, b, hv, ht, hne⟩ := hq.refParked (w := v) hi (by simp [refP, refW, hpc])
    simp only [hv, ht] at h
    cases h
    have h1 : ∀ (j : Nat) u, (s.ths.set v { t with pc := .wRetry a b })[j]? = some u → Loc s.state u :=
      loc_of hv _ _ hl (by simp [Loc]) (.inl (Int.le_refl _))
    have hi2 : (s.ths.set v { t with pc := .wRetry a b })[i]? = some th := by
      rw [get_set_ne hne]; exact hi
    exact loc_of (s := { s with ths := s.ths.set v { t with pc := .wRetry a b } }) hi2 _ _ h1
      (by simp [Loc]) (.inl (Int.le_refl _))
  all_goals
    repeat' (split at h)
    all_goals first
    | (cases h; done)
    | (cases h; lo ?_; first | (simp [Loc]; done) | simpa [Loc] using h0)
    | (cases h; split <;> (lo ?_; simp [Loc]))

theorem replay_append (o : Option Nat) (a b : List Ev) :
    replay o (a ++ b) = (replay o a).bind fun o' => replay o' b := by
  induction a generalizing o with
  | nil => rfl
  | cons e a ih =>
    cases e <;> simp only [List.cons_append, replay]
    · split
      · exact ih _
      · rfl
    · split
      · exact ih _
      · rfl
    · exact ih _

/-- The log part of the invariant. -/
def LogOk (s : St) : Prop := ∃ o, replay none s.log = some o ∧
    match o with
    | none => tot hold s.ths = 0
    | some i => ∃ t, s.ths[i]? = some t ∧ t.pc = .crit

/-- A step that is neither an acquisition nor a release. -/
theorem log_same {s : St} {i : Nat} {t : Th} (hi : s.ths[i]? = some t) (t' : Th)
    (h0 : t.pc ≠ .crit) (h1 : hold t' = 0) (hl : LogOk s)
    (state sema wc : Int) (q : List Nat) (lk : Bool) (log : List Ev)
    (hlog : replay none log = replay none s.log) :
    LogOk ⟨state, sema, wc, q, lk, s.ths.set i t', log⟩ := by
  obtain ⟨o, ho, hm⟩ := hl
  refine ⟨o, by simpa [hlog] using ho, ?_⟩
  cases o with
  | none =>
    simp only at hm ⊢
    have : hold t = 0 := by
      unfold hold; split
      · rename_i he; exact absurd he h0
      · rfl
    rw [tot_set _ hi, h1]; omega
  | some j =>
    obtain ⟨u, hu, hc⟩ := hm
    refine ⟨u, ?_, hc⟩
    have : i ≠ j := by intro e; subst e; rw [hi] at hu; cases hu; exact h0 hc
    simp only [get_set_ne this]
    exact hu

/-- An acquisition while the LOCKED bit is clear. -/
theorem log_acq {s : St} {i : Nat} {t : Th} (hi : s.ths[i]? = some t)
    (h0 : s.state % 2 = 0) (hn : Num s) (hl : LogOk s)
    (state sema wc : Int) (q : List Nat) (lk : Bool) :
    LogOk ⟨state, sema, wc, q, lk, s.ths.set i { t with pc := .crit }, s.log ++ [.acquired i]⟩ := by
  obtain ⟨o, ho, hm⟩ := hl
  have hh : tot hold s.ths = 0 := by have := hn.core; unfold Core at this; omega
  cases o with
  | none =>
    refine ⟨some i, ?_, _, get_set_eq hi, rfl⟩
    simp only [replay_append, ho]
    simp [replay]
  | some j =>
    exfalso
    obtain ⟨u, hu, hc⟩ := hm
    have := tot_ge hold_nn hu
    simp only [hold, hc] at this
    omega

theorem log_step {s s' : St} {i : Nat} {th : Th} {c : Choice}
    (hn : Num s) (hq : Que s) (hl0 : Loc s.state th) (hl : LogOk s)
    (hi : s.ths[i]? = some th) (h : stepTh s i th c = .next s') : LogOk s' := by
  have d0 := dom0 s.ths
  have d := dom hi
  have n2 := hn.semaNN
  have hc := hn.core
  unfold Core at hc
  cases hpc : th.pc
  all_goals simp only [stepTh, hpc] at h
  case lockFast =>
    split at h <;> cases h
    · rename_i he
      exact log_acq hi (by omega) hn hl _ _ _ _ _
    · exact log_same hi _ (by simp [hpc]) (by simp [hold]) hl _ _ _ _ _ _ rfl
  case loop old aw st ws =>
    split at h
    · split at h
      · cases h; exact log_same hi _ (by simp [hpc]) (by simp [hold]) hl _ _ _ _ _ _ rfl
      · cases h; exact log_same hi _ (by simp [hpc]) (by simp [hold]) hl _ _ _ _ _ _ rfl
    · split at h
      · cases h
      · split at h
        · split at h
          · cases h; exact log_same hi _ (by simp [hpc]) (by simp [hold]) hl _ _ _ _ _ _ rfl
          · rename_i he hb
            subst he
            simp only [Bool.or_eq_true, not_or, Bool.not_eq_true, isL_f] at hb
            cases h
            exact log_acq hi hb.1 hn hl _ _ _ _ _
        · cases h; exact log_same hi _ (by simp [hpc]) (by simp [hold]) hl _ _ _ _ _ _ rfl
  case hand old st =>
    simp only [hnd, hpc] at d
    split at h
    · cases h
    · cases h
      exact log_acq hi (by omega) hn hl _ _ _ _ _
  case tryCas old =>
    split at h
    · cases h
      refine log_same hi _ (by simp [hpc]) (by simp [hold]) hl _ _ _ _ _ _ ?_
      simp only [St.go]
      rw [replay_append]
      cases replay none s.log <;> simp [replay]
    · rename_i hb
      simp only [Bool.or_eq_true, not_or, Bool.not_eq_true, isL_f] at hb
      split at h
      · rename_i he
        subst he
        cases h
        exact log_acq hi hb.1 hn hl _ _ _ _ _
      · cases h
        refine log_same hi _ (by simp [hpc]) (by simp [hold]) hl _ _ _ _ _ _ ?_
        simp only [St.go]
        rw [replay_append]
        cases replay none s.log <;> simp [replay]
  case crit =>
    cases h
    obtain ⟨o, ho, hm⟩ := hl
    have dh := d.1
    simp only [hold, hpc] at dh
    cases o with
    | none => exfalso; simp only at hm; omega
    | some j =>
      obtain ⟨u, hu, hcu⟩ := hm
      have hij : i = j := by
        rcases Nat.decEq i j with h1 | h1
        · exfalso
          have := tot_ge2 hold_nn h1 hi hu
          simp only [hold, hpc, hcu] at this
          omega
        · exact h1
      subst hij
      refine ⟨none, ?_, ?_⟩
      · simp only [St.ev, St.go, replay_append, ho]
        simp [replay]
      · simp only [St.ev, St.go]
        rw [tot_set _ hi]
        simp only [hold, hpc]
        omega
  case rTick v =>
    obtain ⟨t, a, b, hv, ht, hne⟩ := hq.refParked (w := v) hi (by simp [refP, refW, hpc])
    simp only [hv] at h
    cases h
    have h1 : LogOk { s with ths := s.ths.set v { t with ticket := true } } :=
      log_same hv _ (by simp [ht]) (by simp [hold, ht]) hl _ _ _ _ _ _ rfl
    have hi2 : (s.ths.set v { t with ticket := true })[i]? = some th := by
      rw [get_set_ne hne]; exact hi
    exact log_same (s := { s with ths := s.ths.set v { t with ticket := true } }) hi2 _
      (by simp [hpc]) (by simp [hold]) h1 _ _ _ _ _ _ rfl
  case rWake v =>
    obtain ⟨t, a, b, hv, ht, hne⟩ := hq.refParked (w := v) hi (by simp [refP, refW, hpc])
    simp only [hv, ht] at h
    cases h
    have h1 : LogOk { s with ths := s.ths.set v { t with pc := .wRetry a b } } :=
      log_same hv _ (by simp [ht]) (by simp [hold]) hl _ _ _ _ _ _ rfl
    have hi2 : (s.ths.set v { t with pc := .wRetry a b })[i]? = some th := by
      rw [get_set_ne hne]; exact hi
    exact log_same (s := { s with ths := s.ths.set v { t with pc := .wRetry a b } }) hi2 _
      (by simp [hpc]) (by simp [hold]) h1 _ _ _ _ _ _ rfl
  all_goals
    repeat' (split at h)
    all_goals first
    | (cases h; done)
    | (cases h; refine log_same hi _ (by simp [hpc]) ?_ hl _ _ _ _ _ _ rfl; first | (simp [hold]; done) | (split <;> rfl))

theorem Inv.step {s s' : St} {i : Nat} {c : Choice} (hI : Inv s) (h : step s i c = .next s') :
    Inv s' := by
  unfold Mutex.step at h
  cases hi : s.ths[i]? with
  | none => rw [hi] at h; cases h
  | some th =>
    rw [hi] at h
    simp only at h
    have hl0 := hI.loc i th hi
    refine ⟨?_, que_step hI.num hI.que hl0 hi h, loc_step hI.num hI.que hI.loc hi h,
      log_step hI.num hI.que hl0 hI.log hi h⟩
    by_cases h1 : ∃ w, th.pc = .rTick w
    · obtain ⟨w, hw⟩ := h1
      exact num_tick hI.num hI.que hi hw h
    · by_cases h2 : ∃ w, th.pc = .rWake w
      · obtain ⟨w, hw⟩ := h2
        exact num_wake hI.num hI.que hi hw h
      · exact num_step hI.num hl0 hi h (fun w => ⟨fun e => h1 ⟨w, e⟩, fun e => h2 ⟨w, e⟩⟩)

theorem Inv.init (n : Nat) : Inv (init n) := by
  have z : ∀ f : Th → Int, f ⟨.idle, false⟩ = 0 → tot f (List.replicate n ⟨.idle, false⟩) = 0 :=
    fun f h => tot_replicate h n
  have g : ∀ (i : Nat) (t : Th), (List.replicate n (⟨.idle, false⟩ : Th))[i]? = some t →
      t = ⟨.idle, false⟩ := by
    intro i t h
    rw [List.getElem?_replicate] at h
    split at h
    · cases h; rfl
    · cases h
  refine ⟨?_, ?_, ?_, ?_⟩
  · constructor <;> simp only [Mutex.init]
    · omega
    · unfold Core
      simp only [z hold rfl, z awk rfl, z gr rfl, z hnd rfl, z wtg rfl]
      decide
    · simp only [z psh rfl, z dw2 rfl, z inl rfl, z pop rfl, z as2 rfl]; rfl
    · simp only [z psh rfl, z dw2 rfl]; rfl
    · left; simp only [z pop rfl]; omega
    · left; simp only [z as2 rfl]; omega
    · left; omega
    · right; left; omega
  · constructor
    · intro w
      simp only [Mutex.init, z (refP w) rfl, z (refW w) rfl]
      split
      · rename_i t ht
        rw [g w t ht]; rfl
      · rfl
    · intro w t ht hp
      simp only [Mutex.init] at ht
      rw [g w t ht] at hp; exact hp.elim
    · intro w t ht hp
      simp only [Mutex.init] at ht
      rw [g w t ht] at hp; exact hp.elim
  · intro i t ht
    simp only [Mutex.init] at ht
    rw [g i t ht]; trivial
  · exact ⟨none, rfl, z hold rfl⟩

theorem Reach.inv {n : Nat} {s : St} (h : Reach n s) : Inv s := by
  induction h with
  | init => exact Inv.init n
  | step _ hs ih => exact ih.step hs

/-- In an invariant state the only assertion that can fail is the one on line
270, evaluated without the locker. -/
theorem Inv.noFault {s : St} (hI : Inv s) {i : Nat} {c : Choice} {f : Fault}
    (h : Mutex.step s i c = .fail f) : f = .unlockedCount := by
  unfold Mutex.step at h
  cases hi : s.ths[i]? with
  | none => rw [hi] at h; cases h
  | some th =>
    rw [hi] at h
    simp only at h
    have hl := hI.loc i th hi
    have hn := hI.num
    have d := dom hi
    have d0 := dom0 s.ths
    have hlk := hn.lock
    have hlk1 : b2i s.lk ≤ 1 := by unfold b2i; split <;> omega
    have hct := hn.count
    cases hpc : th.pc
    all_goals simp only [stepTh, hpc] at h
    all_goals simp only [hpc, Loc] at hl
    case loop old aw st ws =>
      split at h
      · split at h <;> cases h
      · split at h
        · rename_i ha
          simp only [isW_lockNew, Bool.and_eq_true, Bool.not_eq_true'] at ha
          have := hl.2 ha.1
          rw [ha.2] at this; cases this
        · split at h
          · split at h <;> cases h
          · cases h
    case hand old st =>
      split at h
      · rename_i hb
        simp only [hl.1, hl.2.1, Bool.or_eq_true, decide_eq_true_eq, Bool.false_eq_true, false_or] at hb
        omega
      · cases h
    case uChk new =>
      split at h
      · cases h
      · split at h
        · rename_i hb
          simp only [Bool.not_eq_true', isL_f] at hb
          have := isL_f.1 hl
          omega
        · split at h <;> cases h
    case wChk st =>
      split at h
      · cases h
      · simp only [psh, dw2, inl, pop, as2, hpc] at d
        omega
    case rAss2 =>
      split at h
      · cases h
      · have := hn.as2Z
        simp only [psh, dw2, inl, pop, as2, hpc] at d
        omega
    case rPop =>
      split at h
      · rename_i hq
        have := hn.popNZ
        simp only [psh, dw2, inl, pop, as2, hpc] at d
        rw [hq] at hct
        simp only [List.length_nil] at hct
        omega
      · cases h
    case rAss =>
      split at h
      · cases h
      · cases h; rfl
    case rTick v =>
      obtain ⟨t, a, b, hv, ht, hne⟩ := hI.que.refParked (w := v) hi (by simp [refP, refW, hpc])
      simp only [hv] at h
      cases h
    case rWake v =>
      obtain ⟨t, a, b, hv, ht, hne⟩ := hI.que.refParked (w := v) hi (by simp [refP, refW, hpc])
      simp only [hv, ht] at h
      cases h
    all_goals
      repeat' (split at h)
      all_goals cases h

/-- No lost wake-up: if nobody owns the mutex and nobody can take a step, then
nobody is inside a mutex call. -/
theorem Inv.noStuck {s : St} (hI : Inv s) (hno : replay none s.log = some none)
    (hst : ∀ i, Outside s i ∨ Stuck s i) : ∀ i, Outside s i := by
  have hn := hI.num
  -- nobody holds
  have hH : tot hold s.ths = 0 := by
    obtain ⟨o, ho, hm⟩ := hI.log
    rw [hno] at ho; cases ho; exact hm
  have cr : ∀ (i : Nat) t, s.ths[i]? = some t → t.pc ≠ .crit := by
    intro i t ht he
    have := tot_ge hold_nn ht
    simp only [hold, he] at this
    omega
  -- what a stuck coroutine can be doing
  have kinds : ∀ (i : Nat) t, s.ths[i]? = some t →
      t.pc = .idle ∨ (∃ a b, t.pc = .parked a b) ∨ (s.lk = true ∧ (t.pc = .rLock ∨ ∃ a b, t.pc = .wLock a b)) := by
    intro i t ht
    rcases hst i with h | h
    · exact .inl (h t ht)
    · have h := h ⟨false, false, false⟩
      simp only [Mutex.step, ht] at h
      cases hpc : t.pc
      all_goals simp only [stepTh, hpc] at h
      case idle => exact .inl rfl
      case parked => exact .inr (.inl ⟨_, _, rfl⟩)
      case rLock =>
        split at h
        · exact .inr (.inr ⟨by assumption, .inl rfl⟩)
        · cases h
      case wLock =>
        split at h
        · exact .inr (.inr ⟨by assumption, .inr ⟨_, _, rfl⟩⟩)
        · cases h
      all_goals exfalso
      all_goals repeat' (split at h)
      all_goals cases h
  -- so the locker is free
  have hz : ∀ f : Th → Int, (∀ t, t.pc = .idle → f t = 0) → (∀ t a b, t.pc = .parked a b → f t = 0) →
      (∀ t, t.pc = .rLock → f t = 0) → (∀ t a b, t.pc = .wLock a b → f t = 0) → tot f s.ths = 0 := by
    intro f f1 f2 f3 f4
    refine tot_zero ?_
    intro i t ht
    rcases kinds i t ht with h | ⟨a, b, h⟩ | ⟨-, h | ⟨a, b, h⟩⟩
    · exact f1 t h
    · exact f2 t a b h
    · exact f3 t h
    · exact f4 t a b h
  have z1 := hz psh (by intro t h; simp [psh, h]) (by intro t a b h; simp [psh, h])
    (by intro t h; simp [psh, h]) (by intro t a b h; simp [psh, h])
  have z2 := hz dw2 (by intro t h; simp [dw2, h]) (by intro t a b h; simp [dw2, h])
    (by intro t h; simp [dw2, h]) (by intro t a b h; simp [dw2, h])
  have z3 := hz inl (by intro t h; simp [inl, h]) (by intro t a b h; simp [inl, h])
    (by intro t h; simp [inl, h]) (by intro t a b h; simp [inl, h])
  have z4 := hz pop (by intro t h; simp [pop, h]) (by intro t a b h; simp [pop, h])
    (by intro t h; simp [pop, h]) (by intro t a b h; simp [pop, h])
  have z5 := hz as2 (by intro t h; simp [as2, h]) (by intro t a b h; simp [as2, h])
    (by intro t h; simp [as2, h]) (by intro t a b h; simp [as2, h])
  have hlk : s.lk = false := by
    have := hn.lock
    rw [z1, z2, z3, z4, z5] at this
    rcases Bool.eq_false_or_eq_true s.lk with h | h
    · rw [h] at this; simp [b2i] at this
    · exact h
  -- everybody is idle or parked
  have kinds2 : ∀ (i : Nat) t, s.ths[i]? = some t → t.pc = .idle ∨ ∃ a b, t.pc = .parked a b := by
    intro i t ht
    rcases kinds i t ht with h | h | ⟨h, -⟩
    · exact .inl h
    · exact .inr h
    · rw [hlk] at h; cases h
  intro i th hi
  rcases kinds2 i th hi with h | ⟨a, b, hp⟩
  · exact h
  exfalso
  have hz2 : ∀ f : Th → Int, (∀ t, t.pc = .idle → f t = 0) → (∀ t a b, t.pc = .parked a b → f t = 0) →
      tot f s.ths = 0 := by
    intro f f1 f2
    refine tot_zero ?_
    intro i t ht
    rcases kinds2 i t ht with h | ⟨a, b, h⟩
    · exact f1 t h
    · exact f2 t a b h
  have y1 := hz2 act (by intro t h; simp [act, h]) (by intro t a b h; simp [act, h])
  have y2 := hz2 unl (by intro t h; simp [unl, h]) (by intro t a b h; simp [unl, h])
  have y3 := hz2 awk (by intro t h; simp [awk, h]) (by intro t a b h; simp [awk, h])
  have y4 := hz2 hnd (by intro t h; simp [hnd, h]) (by intro t a b h; simp [hnd, h])
  have yP : ∀ w, tot (refP w) s.ths = 0 := fun w =>
    hz2 (refP w) (by intro t h; simp [refP, h]) (by intro t a b h; simp [refP, h])
  have yW : ∀ w, tot (refW w) s.ths = 0 := fun w =>
    hz2 (refW w) (by intro t h; simp [refW, h]) (by intro t a b h; simp [refW, h])
  -- every parked coroutine is in the list, without a ticket
  have inQ : ∀ (w : Nat) t a b, s.ths[w]? = some t → t.pc = .parked a b → s.q.count w = 1 := by
    intro w t a b hw ht
    have := hI.que.occ w
    rw [hw, yP, yW] at this
    simp only [prk, ht] at this
    omega
  have y5 : tot gr s.ths = 0 := by
    refine tot_zero ?_
    intro w t hw
    rcases kinds2 w t hw with h | ⟨a, b, h⟩
    · simp [gr, h]
    · have h1 := inQ w t a b hw h
      rcases Bool.eq_false_or_eq_true t.ticket with h2 | h2
      · have := hI.que.tick w t hw (by rw [h]; trivial) h2
        rw [yP] at this; omega
      · simp [gr, h, h2]
  have hql : 1 ≤ s.q.length := by
    have h1 := inQ i th a b hi hp
    have := List.count_le_length (a := i) (l := s.q)
    omega
  have hs0 : s.sema = 0 := by
    have := hn.seen
    have := hn.semaNN
    omega
  have hwt := tot_ge wtg_nn hi
  simp only [wtg, hp] at hwt
  have hc := hn.core
  have hw := hn.woke
  unfold Core at hc
  rw [hH, y3, y5, y4, hs0] at hc
  omega

end Nature.Mutex
