import Verif.Mutex.Inv
/-! The counting invariant is preserved by every step. -/
namespace Nature.Mutex

theorem hold_nn (t : Th) : 0 ≤ hold t := by unfold hold; split <;> omega
theorem awk_nn (t : Th) : 0 ≤ awk t := by unfold awk; split <;> omega
theorem gr_nn (t : Th) : 0 ≤ gr t := by unfold gr; split <;> (try split) <;> omega
theorem hnd_nn (t : Th) : 0 ≤ hnd t := by unfold hnd; split <;> omega
theorem wtg_nn (t : Th) : 0 ≤ wtg t := by unfold wtg; split <;> omega
theorem psh_nn (t : Th) : 0 ≤ psh t := by unfold psh; split <;> omega
theorem dw2_nn (t : Th) : 0 ≤ dw2 t := by unfold dw2; split <;> omega
theorem inl_nn (t : Th) : 0 ≤ inl t := by unfold inl; split <;> omega
theorem pop_nn (t : Th) : 0 ≤ pop t := by unfold pop; split <;> omega
theorem as2_nn (t : Th) : 0 ≤ as2 t := by unfold as2; split <;> omega
theorem act_nn (t : Th) : 0 ≤ act t := by unfold act; split <;> omega
theorem unl_nn (t : Th) : 0 ≤ unl t := by unfold unl; split <;> (try split) <;> omega
theorem refP_nn (w : Nat) (t : Th) : 0 ≤ refP w t := by
  unfold refP; split <;> (try split) <;> omega
theorem refW_nn (w : Nat) (t : Th) : 0 ≤ refW w t := by
  unfold refW; split <;> (try split) <;> omega
theorem prk_nn (t : Th) : 0 ≤ prk t := by unfold prk; split <;> omega

/-- Every total dominates the contribution of coroutine `i`. -/
theorem dom {l : List Th} {i : Nat} {t : Th} (h : l[i]? = some t) :
    hold t ≤ tot hold l ∧ awk t ≤ tot awk l ∧ gr t ≤ tot gr l ∧ hnd t ≤ tot hnd l ∧
    wtg t ≤ tot wtg l ∧ psh t ≤ tot psh l ∧ dw2 t ≤ tot dw2 l ∧ inl t ≤ tot inl l ∧
    pop t ≤ tot pop l ∧ as2 t ≤ tot as2 l ∧ act t ≤ tot act l ∧ unl t ≤ tot unl l :=
  ⟨tot_ge hold_nn h, tot_ge awk_nn h, tot_ge gr_nn h, tot_ge hnd_nn h, tot_ge wtg_nn h,
   tot_ge psh_nn h, tot_ge dw2_nn h, tot_ge inl_nn h, tot_ge pop_nn h, tot_ge as2_nn h,
   tot_ge act_nn h, tot_ge unl_nn h⟩

theorem dom0 (l : List Th) :
    0 ≤ tot hold l ∧ 0 ≤ tot awk l ∧ 0 ≤ tot gr l ∧ 0 ≤ tot hnd l ∧
    0 ≤ tot wtg l ∧ 0 ≤ tot psh l ∧ 0 ≤ tot dw2 l ∧ 0 ≤ tot inl l ∧
    0 ≤ tot pop l ∧ 0 ≤ tot as2 l ∧ 0 ≤ tot act l ∧ 0 ≤ tot unl l :=
  ⟨tot_nonneg hold_nn l, tot_nonneg awk_nn l, tot_nonneg gr_nn l, tot_nonneg hnd_nn l,
   tot_nonneg wtg_nn l, tot_nonneg psh_nn l, tot_nonneg dw2_nn l, tot_nonneg inl_nn l,
   tot_nonneg pop_nn l, tot_nonneg as2_nn l, tot_nonneg act_nn l, tot_nonneg unl_nn l⟩

/-- One coroutine changes from `t` to `t'` while the shared words change: the
counting invariant follows from four arithmetic facts. -/
theorem num_of {s : St} {i : Nat} {t : Th} (hi : s.ths[i]? = some t) (t' : Th)
    (state sema wc : Int) (q : List Nat) (lk : Bool) (log : List Ev)
    (h0 : 0 ≤ sema)
    (hc : ∀ H A G X Q : Int, Core s.state s.sema H A G X Q →
      hold t ≤ H → awk t ≤ A → gr t ≤ G → hnd t ≤ X → wtg t ≤ Q →
      0 ≤ H → 0 ≤ A → 0 ≤ G → 0 ≤ X → 0 ≤ Q →
      Core state sema (H - hold t + hold t') (A - awk t + awk t') (G - gr t + gr t')
        (X - hnd t + hnd t') (Q - wtg t + wtg t'))
    (hk : ∀ P D I O R : Int, P + D + I + O + R = b2i s.lk → s.wc = s.q.length + P + D →
      (O ≤ 0 ∨ s.wc ≠ 0) → (R ≤ 0 ∨ s.wc = 0) →
      psh t ≤ P → dw2 t ≤ D → inl t ≤ I → pop t ≤ O → as2 t ≤ R →
      0 ≤ P → 0 ≤ D → 0 ≤ I → 0 ≤ O → 0 ≤ R →
      (P - psh t + psh t') + (D - dw2 t + dw2 t') + (I - inl t + inl t') + (O - pop t + pop t')
        + (R - as2 t + as2 t') = b2i lk ∧
      wc = q.length + (P - psh t + psh t') + (D - dw2 t + dw2 t') ∧
      (O - pop t + pop t' ≤ 0 ∨ wc ≠ 0) ∧ (R - as2 t + as2 t' ≤ 0 ∨ wc = 0))
    (hs : ∀ P D A G : Int, (s.sema ≤ 0 ∨ s.q.length + P ≤ 0 ∨ 1 ≤ A) →
      s.wc = s.q.length + P + D → 0 ≤ P → 0 ≤ D → 0 ≤ s.sema → gr t ≤ G → s.sema + G ≤ 1 → psh t ≤ P →
      act t ≤ A → 
      (sema ≤ 0 ∨ q.length + (P - psh t + psh t') ≤ 0 ∨ 1 ≤ A - act t + act t'))
    (hw : ∀ U H : Int, (s.state % 8 ≠ 0 ∨ s.state < 8 ∨ 1 ≤ U) → unl t ≤ U → 0 ≤ U →
      H = s.state % 2 → hold t ≤ H → 
      (state % 8 ≠ 0 ∨ state < 8 ∨ 1 ≤ U - unl t + unl t'))
    (hn : Num s) :
    Num ⟨state, sema, wc, q, lk, s.ths.set i t', log⟩ := by
  obtain ⟨d1,d2,d3,d4,d5,d6,d7,d8,d9,d10,d11,d12⟩ := dom hi
  obtain ⟨e1,e2,e3,e4,e5,e6,e7,e8,e9,e10,e11,e12⟩ := dom0 s.ths
  have k := hk _ _ _ _ _ hn.lock hn.count hn.popNZ hn.as2Z d6 d7 d8 d9 d10 e6 e7 e8 e9 e10
  have g1 : s.sema + tot gr s.ths ≤ 1 := by
    have := hn.core; unfold Core at this; omega
  have g2 : tot hold s.ths = s.state % 2 := by
    have := hn.core; unfold Core at this; omega
  constructor <;> simp only [tot_set _ hi]
  · exact h0
  · exact hc _ _ _ _ _ hn.core d1 d2 d3 d4 d5 e1 e2 e3 e4 e5
  · exact k.1
  · exact k.2.1
  · exact k.2.2.1
  · exact k.2.2.2
  · exact hs _ _ _ _ hn.seen hn.count e6 e7 hn.semaNN d3 g1 d6 d11
  · exact hw _ _ hn.woke d12 e12 g2 d1


macro "coretac" : tactic => `(tactic|
  (intro H A G X Q hC h1 h2 h3 h4 h5 k1 k2 k3 k4 k5
   unfold Core at hC ⊢
   obtain ⟨c1, c2, hC⟩ := hC
   simp only [hold, awk, gr, hnd, wtg, ‹Th.pc _ = _›] at h1 h2 h3 h4 h5 ⊢
   try simp only [isS, decide_eq_true_eq, Bool.false_eq_true, if_true, if_false, *] at h1 h2 h3 h4 h5 ⊢
   rcases hC with ⟨c3, c4, c5, c6⟩ | ⟨c3, c4, c5, c6, c7, c8⟩ <;>
   refine ⟨by omega, by omega, ?_⟩ <;>
   first
   | (left; refine ⟨?_, ?_, ?_, ?_⟩ <;> omega)
   | (right; refine ⟨?_, ?_, ?_, ?_, ?_, ?_⟩ <;> omega)))
macro "locktac" : tactic => `(tactic|
  (intro P D I O R k1 k2 k3 k4 h1 h2 h3 h4 h5 g1 g2 g3 g4 g5
   simp only [psh, dw2, inl, pop, as2, ‹Th.pc _ = _›] at h1 h2 h3 h4 h5 ⊢
   try simp only [‹St.lk _ = _›] at k1
   simp only [b2i, Bool.false_eq_true, if_true, if_false] at k1 ⊢
   try simp only [List.length_append, List.length_cons, List.length_nil] 
   refine ⟨by omega, by omega, by omega, by omega⟩))
macro "seentac" : tactic => `(tactic|
  (intro P D A G k1 k2 k3 k4 k5 k6 k7 k8 k9
   simp only [gr, psh, act, ‹Th.pc _ = _›] at k6 k8 k9 ⊢
   try simp only [List.length_append, List.length_cons, List.length_nil] 
   try simp only [‹Th.ticket _ = _›, Bool.false_eq_true, if_true, if_false] at k6
   omega))
macro "woketac" : tactic => `(tactic|
  (intro U H k1 k2 k3 k4 k5
   simp only [hold, unl, ‹Th.pc _ = _›] at k2 k5 ⊢
   try simp only [good, decide_eq_true_eq, Bool.and_eq_true] at k2 k5 ⊢
   omega))
macro "numtac" : tactic => `(tactic|
  (try simp only [St.go, St.ev, if_true, if_false, Bool.false_eq_true]
   refine num_of ‹_[_]? = some _› _ _ _ _ _ _ _ ?_ ?_ ?_ ?_ ?_ ‹Num _›
   · omega
   · coretac
   · locktac
   · seentac
   · woketac))

theorem lockNew_free {o : Int} {st : Bool} (h1 : isL o = false) (h2 : isS o = false) :
    lockNew o st = o + 1 := by simp [lockNew, h1, h2, setL]
theorem lockNew_S {o : Int} {st : Bool} (h2 : isS o = true) : lockNew o st = o + 8 := by
  have h3 : isS (o + 8) = true := by simp only [isS, decide_eq_true_eq] at *; omega
  simp [lockNew, h2, setS, h3]
theorem lockNew_L {o : Int} (h1 : isL o = true) (h2 : isS o = false) :
    lockNew o false = o + 8 := by simp [lockNew, h1, h2, setL]
theorem lockNew_Ls {o : Int} (h1 : isL o = true) (h2 : isS o = false) :
    lockNew o true = o + 12 := by
  have h3 : isS (o + 8) = false := by simp only [isS, decide_eq_false_iff_not] at *; omega
  simp [lockNew, h1, h2, setL, setS, h3]; omega
theorem isW_lockNew (o : Int) (st : Bool) : isW (lockNew o st) = isW o := by
  rcases Bool.eq_false_or_eq_true (isS o) with h2 | h2
  · rw [lockNew_S h2]; simp only [isW, decide_eq_decide]; omega
  · rcases Bool.eq_false_or_eq_true (isL o) with h1 | h1
    · cases st
      · rw [lockNew_L h1 h2]; simp only [isW, decide_eq_decide]; omega
      · rw [lockNew_Ls h1 h2]
        simp only [isW, isS, decide_eq_decide, decide_eq_false_iff_not] at *; omega
    · rw [lockNew_free h1 h2]
      simp only [isW, isL, decide_eq_decide, decide_eq_false_iff_not] at *; omega
theorem isL_t {x : Int} : isL x = true ↔ x % 2 = 1 := by simp [isL]
theorem isW_t {x : Int} : isW x = true ↔ x / 2 % 2 = 1 := by simp [isW]
theorem isS_t {x : Int} : isS x = true ↔ x / 4 % 2 = 1 := by simp [isS]
theorem isL_f {x : Int} : isL x = false ↔ x % 2 = 0 := by simp [isL]; omega
theorem isW_f {x : Int} : isW x = false ↔ x / 2 % 2 = 0 := by simp [isW]; omega
theorem isS_f {x : Int} : isS x = false ↔ x / 4 % 2 = 0 := by simp [isS]; omega

theorem num_loop {s s' : St} {i : Nat} {th : Th} {c : Choice} {old : Int} {aw st ws : Bool}
    (hn : Num s) (hl : Loc s.state th) (hi : s.ths[i]? = some th) (hpc : th.pc = .loop old aw st ws)
    (h : stepTh s i th c = .next s') : Num s' := by
  have n2 := hn.semaNN
  simp only [stepTh, hpc] at h
  simp only [hpc, Loc] at hl
  split at h
  · rename_i hsp
    simp only [Bool.and_eq_true, Bool.not_eq_true'] at hsp
    split at h
    · rename_i hc
      simp only [Bool.and_eq_true, Bool.not_eq_true', decide_eq_true_eq] at hc
      obtain ⟨⟨⟨ha, hw⟩, h8⟩, he⟩ := hc
      obtain ⟨⟨hL, hS⟩, -⟩ := hsp
      subst ha
      cases h
      simp only [setW, hw]
      subst he
      have hL' := isL_t.1 hL
      have hW' := isW_f.1 hw
      have hS' := isS_f.1 hS
      numtac
    · cases h
      cases aw
      · numtac
      · numtac
  · split at h
    · cases h
    · split at h
      · rename_i he
        subst he
        rcases Bool.eq_false_or_eq_true (isS s.state) with hS | hS
        · simp only [hS, Bool.or_true, if_true, lockNew_S] at h
          have hS' := isS_t.1 hS
          cases h
          cases aw
          · numtac
          · exfalso
            have := isW_t.1 (hl.2 rfl)
            have := hn.core
            unfold Core at this; omega
        · rcases Bool.eq_false_or_eq_true (isL s.state) with hL | hL
          · simp only [hS, hL, Bool.or_false, if_true, clrW, isW_lockNew] at h
            have hS' := isS_f.1 hS
            have hL' := isL_t.1 hL
            cases h
            cases aw
            · cases st
              · rw [lockNew_L hL hS]; numtac
              · have := hl.1 rfl; contradiction
            · have hW := hl.2 rfl
              have hW' := isW_t.1 hW
              simp only [hW]
              cases st
              · rw [lockNew_L hL hS]; numtac
              · rw [lockNew_Ls hL hS]; numtac
          · simp only [hS, hL, Bool.or_false, Bool.false_eq_true, if_false, clrW,
              lockNew_free] at h
            have hS' := isS_f.1 hS
            have hL' := isL_f.1 hL
            cases h
            cases aw
            · numtac
            · have hW := hl.2 rfl
              have hW' := isW_t.1 hW
              have hW2 : isW (s.state + 1) = true := isW_t.2 (by omega)
              simp only [hW2]
              numtac
      · cases h
        cases aw
        · numtac
        · numtac

theorem num_step {s s' : St} {i : Nat} {th : Th} {c : Choice}
    (hn : Num s) (hl : Loc s.state th) (hi : s.ths[i]? = some th)
    (h : stepTh s i th c = .next s') (hne : ∀ w, th.pc ≠ .rTick w ∧ th.pc ≠ .rWake w) : Num s' := by
  have n2 := hn.semaNN
  cases hpc : th.pc
  case loop a b c d => exact num_loop hn hl hi hpc h
  case rTick w => exact absurd hpc (hne w).1
  case rWake w => exact absurd hpc (hne w).2
  all_goals simp only [stepTh, hpc] at h
  all_goals simp only [hpc, Loc] at hl
  case idle =>
    cases h
    cases c.try_
    · numtac
    · numtac
  case lockFast =>
    split at h <;> cases h
    · numtac
    · numtac
  case reload a b c =>
    cases h
    cases a
    · numtac
    · numtac
  case wAcq =>
    split at h <;> cases h
    · numtac
    · numtac
  case wLock =>
    split at h
    · cases h
    · rename_i hk
      have hk' : s.lk = false := by simpa using hk
      cases h
      numtac
  case wInc => cases h; numtac
  case wSem =>
    split at h <;> cases h
    · numtac
    · numtac
  case wDec => cases h; numtac
  case wChk =>
    split at h <;> cases h
    numtac
  case wUnl =>
    cases hk : s.lk <;> cases h <;> numtac
  case wPush st hd =>
    cases h
    cases hd
    · numtac
    · numtac
  case wPark =>
    cases hk : s.lk <;> cases h <;> numtac
  case parked => cases h
  case wRetry =>
    split at h
    · rename_i ht
      cases h
      numtac
    · rename_i ht
      have ht' : th.ticket = false := by simpa using ht
      split at h <;> cases h
      · numtac
      · numtac
  case tok =>
    split at h
    · rename_i hS
      have hS' := isS_t.1 hS
      cases h
      numtac
    · rename_i hS
      have hS' := isS_f.1 (by simpa using hS)
      cases h
      numtac
  case hand old st =>
    split at h
    · cases h
    · obtain ⟨l1, l2, l3, l4⟩ := hl
      simp only [cnt] at l3 l4
      have hx1 := (dom hi).2.2.2.1
      simp only [hnd, hpc] at hx1
      have hx2 : s.state % 2 = 0 ∧ s.state / 2 % 2 = 0 ∧ s.state / 4 % 2 = 1 := by
        have := hn.core; have := dom0 s.ths; unfold Core at *; omega
      obtain ⟨x1, x2, x3⟩ := hx2
      split at h <;> rename_i hx <;>
        simp only [Bool.or_eq_true, Bool.not_eq_true', decide_eq_true_eq, not_or] at hx <;>
        simp only [cnt] at hx
      · cases h; numtac
      · cases h; numtac
  case crit => cases h; numtac
  case tryLoad => cases h; numtac
  case tryCas old =>
    split at h
    · cases h; numtac
    · rename_i hb
      simp only [Bool.or_eq_true, not_or, Bool.not_eq_true] at hb
      split at h
      · rename_i he
        subst he
        simp only [setL, hb.1] at h
        have := isL_f.1 hb.1
        have := isS_f.1 hb.2
        cases h
        numtac
      · cases h; numtac
  case uChk new =>
    split at h
    · cases h; numtac
    · split at h
      · cases h
      · split at h
        · rename_i hS
          have := isS_t.1 hS
          cases h; numtac
        · rename_i hS
          have := isS_f.1 (by simpa using hS)
          cases h; numtac
  case uLoop old =>
    split at h
    · rename_i hb
      simp only [Bool.or_eq_true, decide_eq_true_eq, isL_t, isW_t, isS_t] at hb
      simp only [cnt] at hb
      cases h; numtac
    · rename_i hb
      simp only [Bool.or_eq_true, decide_eq_true_eq, isL_t, isW_t, isS_t, not_or] at hb
      simp only [cnt] at hb
      obtain ⟨⟨⟨b1, b2⟩, b3⟩, b4⟩ := hb
      split at h
      · rename_i he
        subst he
        have hw : isW (s.state - 8) = false := isW_f.2 (by omega)
        simp only [setW, hw] at h
        cases h; numtac
      · cases h; numtac
  case uReload => cases h; numtac
  case rel => cases h; numtac
  case rLoad =>
    cases h
    split
    · numtac
    · numtac
  case rAss =>
    split at h <;> cases h
    numtac
  case rLock =>
    split at h
    · cases h
    · rename_i hk
      have hk' : s.lk = false := by simpa using hk
      cases h
      numtac
  case rLoad2 =>
    cases h
    split
    · numtac
    · numtac
  case rAss2 =>
    split at h <;> cases h
    numtac
  case rUnl0 =>
    cases hk : s.lk <;> cases h <;> numtac
  case rPop =>
    split at h
    · cases h
    · rename_i hq
      cases h
      have hq' : (s.q.length : Int) = ‹List Nat›.length + 1 := by rw [hq]; simp
      numtac
  case rDec => cases h; numtac
  case rUnl =>
    cases hk : s.lk <;> cases h <;> numtac
  case rSem =>
    split at h <;> cases h
    · numtac
    · numtac

end Nature.Mutex
