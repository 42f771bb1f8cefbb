import Verif.Chan.Step
/-! C21, C22, C42, C43, C44: what channels and `select` do, for every history of operations. -/
set_option linter.unusedSectionVars false
namespace Nature.Chan
open Nature
variable {V : Type}

theorem init_inv (dflt : V) (declared : Nat → Nat) : Inv declared (init dflt declared) (fun _ => []) [] := by
  have hno : ∀ d c l, ¬ LiveIn (init dflt declared) d c l := by
    rintro d c l ⟨h, _⟩; simp [init] at h
  refine ⟨?_, ?_, ?_⟩
  · constructor <;> simp [init]
  · refine ⟨?_, ?_, fun c l h => absurd h (hno _ _ _), fun c l h => absurd h (hno _ _ _), fun c x y h => absurd h (hno _ _ _), fun d c l h => absurd h (hno _ _ _)⟩
    · intro c
      simp only [init, newChan, RingOk, List.length_replicate]
      by_cases h : declared c > 0
      · rw [if_pos h]
        exact ⟨trivial, Or.inr ⟨by omega, by rw [if_pos (by omega)], by omega, by simp, by simp, by simp⟩⟩
      · rw [if_neg h]
        exact ⟨trivial, Or.inl ⟨rfl, trivial, trivial, trivial⟩⟩
    · intro c
      simp only [init, newChan, List.length_replicate]
      split <;> omega
  · constructor <;> simp [init, lastComm, accepted, delivered, acceptedAt, deliveredTo, returned, acceptedFrom, sentOk, inFlight, inFlightSend]

theorem isRunning_iff (w : World V) (co : Nat) : isRunning w co = true ↔ w.cos co = .running := by
  unfold isRunning; split <;> simp_all

theorem step_inv {decl : Nat → Nat} {w : World V} {bufs : Nat → List V} {evs : List (Ev V)} (hI : Inv decl w bufs evs) (op : Op V) (hs : Safe op) :
    ∃ w' es bufs', step w op = .ok (w', es) ∧ Inv decl w' bufs' (evs ++ es) ∧ ClosedOk w w' es := by
  have hnoop : ∃ w' es bufs', (.ok (w, []) : Res (World V × List (Ev V))) = .ok (w', es) ∧ Inv decl w' bufs' (evs ++ es) ∧ ClosedOk w w' es :=
    ⟨w, [], bufs, rfl, by rw [List.append_nil]; exact hI, fun c h => ⟨h, by simp [accepted]⟩⟩
  cases op with
  | send co c v t =>
    rw [step]
    by_cases hr : isRunning w co = true
    · rw [if_pos hr]
      obtain ⟨w', es, bufs', h1, h2, h3, _⟩ := send_inv hI ((isRunning_iff w co).1 hr) c v t
      exact ⟨w', es, bufs', h1, h2, h3⟩
    · rw [if_neg hr]; exact hnoop
  | recv co c t =>
    rw [step]
    by_cases hr : isRunning w co = true
    · rw [if_pos hr]
      obtain ⟨w', es, bufs', h1, h2, h3, _⟩ := recv_inv hI ((isRunning_iff w co).1 hr) c t
      exact ⟨w', es, bufs', h1, h2, h3⟩
    · rw [if_neg hr]; exact hnoop
  | close co c =>
    rw [step]
    by_cases hr : isRunning w co = true
    · rw [if_pos hr]
      obtain ⟨w', es, h1, h2, h3, _⟩ := close_inv hI co c
      exact ⟨w', es, bufs, h1, h2, h3⟩
    · rw [if_neg hr]; exact hnoop
  | select co cs t =>
    rw [step]
    by_cases hr : isRunning w co = true
    · rw [if_pos hr]
      obtain ⟨w', es, bufs', h1, h2, h3, _⟩ := select_inv hI ((isRunning_iff w co).1 hr) cs t hs.1 hs.2
      exact ⟨w', es, bufs', h1, h2, h3⟩
    · rw [if_neg hr]; exact hnoop
  | resume co =>
    rw [step]
    obtain ⟨w', es, h1, h2, h3, _⟩ := resume_inv hI co
    exact ⟨w', es, bufs, h1, h2, h3⟩

theorem run_inv {decl : Nat → Nat} (ops : List (Op V)) : ∀ {w : World V} {bufs : Nat → List V} {evs : List (Ev V)}, Inv decl w bufs evs →
    (∀ op ∈ ops, Safe op) → ∃ w' es bufs', run w ops = .ok (w', es) ∧ Inv decl w' bufs' (evs ++ es) ∧ ClosedOk w w' es := by
  induction ops with
  | nil => intro w bufs evs h _; exact ⟨w, [], bufs, rfl, by rw [List.append_nil]; exact h, fun c h => ⟨h, by simp [accepted]⟩⟩
  | cons op ops ih =>
    intro w bufs evs h hs
    obtain ⟨w1, es1, bufs1, h1, h2, h3⟩ := step_inv h op (hs op List.mem_cons_self)
    obtain ⟨w2, es2, bufs2, h4, h5, h6⟩ := ih h2 (fun o ho => hs o (List.mem_cons_of_mem _ ho))
    refine ⟨w2, es1 ++ es2, bufs2, by rw [run, h1, Res.bind_ok, h4, Res.bind_ok], by rw [← List.append_assoc]; exact h5, ?_⟩
    intro c hc
    obtain ⟨g1, g2⟩ := h3 c hc
    obtain ⟨g3, g4⟩ := h6 c g1
    exact ⟨g3, by rw [accepted_append, g2, g4]; rfl⟩

/-- A history that reached the world `w`, having caused the events `evs`. -/
def Reached (dflt : V) (declared : Nat → Nat) (ops : List (Op V)) (w : World V) (evs : List (Ev V)) : Prop :=
  (∀ op ∈ ops, Safe op) ∧ run (init dflt declared) ops = .ok (w, evs)

theorem Reached.inv {dflt : V} {declared : Nat → Nat} {ops : List (Op V)} {w : World V} {evs : List (Ev V)} (h : Reached dflt declared ops w evs) :
    ∃ bufs, Inv declared w bufs evs := by
  obtain ⟨w', es, bufs', h1, h2, _⟩ := run_inv ops (init_inv dflt declared) h.1
  rw [h.2] at h1
  injection h1 with h1
  injection h1 with h1 h3
  subst h1 h3
  exact ⟨bufs', by simpa using h2⟩

/-- What is accepted but not yet delivered is determined by the events. -/
theorem Inv.bufs_eq {decl : Nat → Nat} {w : World V} {bufs : Nat → List V} {evs : List (Ev V)} (h : Inv decl w bufs evs) {c : Nat} {xs : List V}
    (hx : accepted c evs = delivered c evs ++ xs) : bufs c = xs := by
  have := h.2.2.fifo c
  rw [hx] at this
  exact (List.append_cancel_left this).symm

/-- C21: no history of sends, receives, tries, closes, selects and wake-ups goes wrong, and for every channel: the delivered values are
the accepted values, in order, except the newest ones, which the channel still holds and which are at most its declared capacity;
values are accepted in the order in which the sends were called. -/
theorem C21_fifo_partial (dflt : V) (declared : Nat → Nat) (ops : List (Op V)) (hs : ∀ op ∈ ops, Safe op) :
    ∃ w evs, run (init dflt declared) ops = .ok (w, evs) ∧
      ∀ c, (∃ held, accepted c evs = delivered c evs ++ held ∧ held.length ≤ declared c) ∧ (acceptedAt c evs).Pairwise (· < ·) := by
  obtain ⟨w, es, bufs, h1, ⟨_, hB, hL⟩, _⟩ := run_inv ops (init_inv dflt declared) hs
  rw [List.nil_append] at hL
  refine ⟨w, es, h1, fun c => ⟨⟨bufs c, hL.fifo c, ?_⟩, hL.arr c⟩⟩
  rw [← hB.len c]
  rcases hB.ring c with ⟨_, ⟨_, _, _, h⟩ | ⟨_, _, _, _, h, _⟩⟩
  · rw [h]; simp
  · omega

/-- C21: every value delivered to a coroutine is returned to it exactly once, in order, except possibly the one it has not been scheduled
to pick up; and a coroutine's successful sends are exactly the values accepted from it, except possibly one it was not yet told about. -/
theorem C21_exactly_once_partial {dflt : V} {declared : Nat → Nat} {ops : List (Op V)} {w : World V} {evs : List (Ev V)}
    (h : Reached dflt declared ops w evs) (co : Nat) :
    deliveredTo co evs = returned co evs ++ inFlight (w.cos co) ∧ acceptedFrom co evs = sentOk co evs + inFlightSend (w.cos co) := by
  obtain ⟨bufs, _, _, hL⟩ := h.inv
  exact ⟨hL.gotR co, hL.gotS co⟩

/-- C21: nobody waits in vain.  A coroutine stays blocked receiving only while the channel is open and holds nothing and no other coroutine
is blocked sending on it; one stays blocked sending only while the channel is open and holds its full capacity. -/
theorem C21_no_lost_wakeup_partial {dflt : V} {declared : Nat → Nat} {ops : List (Op V)} {w : World V} {evs : List (Ev V)}
    (h : Reached dflt declared ops w evs) (co c : Nat) {held : List V} (hh : accepted c evs = delivered c evs ++ held) :
    (Blocked w co .recv c → held = [] ∧ (w.chans c).closed = false ∧ ∀ co', co' ≠ co → ¬ Blocked w co' .send c) ∧
    (Blocked w co .send c → held.length = declared c ∧ (w.chans c).closed = false ∧ ∀ co', co' ≠ co → ¬ Blocked w co' .recv c) := by
  obtain ⟨bufs, hI⟩ := h.inv
  have hb := hI.bufs_eq hh
  obtain ⟨hS, hB, hL⟩ := hI
  constructor
  · intro hbl
    obtain ⟨l, hl, rfl⟩ := (blocked_iff hS _ _ _).1 hbl
    refine ⟨by rw [← hb]; exact hB.empty c l hl, hB.closed _ _ _ hl, fun co' hne hbl' => ?_⟩
    obtain ⟨l', hl', rfl⟩ := (blocked_iff hS _ _ _).1 hbl'
    exact hne (hB.pair c l l' hl hl').symm
  · intro hbl
    obtain ⟨l, hl, rfl⟩ := (blocked_iff hS _ _ _).1 hbl
    refine ⟨by rw [← hb]; exact hB.full c l hl, hB.closed _ _ _ hl, fun co' hne hbl' => ?_⟩
    obtain ⟨l', hl', rfl⟩ := (blocked_iff hS _ _ _).1 hbl'
    exact hne (hB.pair c l' l hl' hl)

/-- C21: a woken send or receive reports the communication that happened: `recvOk c v` is returned exactly for the value `v` that channel `c`
delivered last to this coroutine, and `sendOk c` after `c` accepted its value. -/
theorem C21_resumed_partial {dflt : V} {declared : Nat → Nat} {ops : List (Op V)} {w : World V} {evs : List (Ev V)}
    (h : Reached dflt declared ops w evs) {co c : Nat} {d : Dir} {r : Wake V} (hw : w.cos co = .waiting (.op d c) (some r)) :
    ∃ w' ret, step w (.resume co) = .ok (w', [.ret co ret]) ∧
      ((∃ x, lastComm co evs = some (d, c, x) ∧ ret = match d with | .send => .sendOk c | .recv => .recvOk c x) ∨
       ((w.chans c).closed = true ∧ ret = closedRet d c)) := by
  obtain ⟨bufs, hI⟩ := h.inv
  obtain ⟨w', es, h1, _, _, h2, _, h3, _⟩ := resume_inv hI co
  obtain ⟨ret, h4, rfl⟩ := h3 d c r hw
  have hc := hI.2.2.comm co _ _ hw
  refine ⟨w', ret, by rw [step, h1], ?_⟩
  simp only [CommOk] at hc
  obtain ⟨ri, rok, rm⟩ := r
  cases rok with
  | false =>
    refine Or.inr ⟨(hc.2 rfl).2, ?_⟩
    have := h2 d c _ hw rfl
    simpa using this
  | true =>
    obtain ⟨x, h5, h6⟩ := hc.1 rfl
    refine Or.inl ⟨x, h5, ?_⟩
    cases d with
    | send => simpa [opRet] using h4.symm
    | recv =>
      have := h6 rfl
      simp only at this
      subst this
      simpa [opRet] using h4.symm

/-! ### Closing -/

/-- C22: closing an open channel succeeds, loses none of the values it holds, and leaves nobody blocked on it: every coroutine that was
blocked in a plain send or receive on it returns the failure for a closed channel at its next step. -/
theorem C22_close_wakes_partial {dflt : V} {declared : Nat → Nat} {ops : List (Op V)} {w : World V} {evs : List (Ev V)}
    (h : Reached dflt declared ops w evs) {co : Nat} (hr : w.cos co = .running) {c : Nat} (hc : (w.chans c).closed = false) :
    ∃ w', step w (.close co c) = .ok (w', [.ret co (.closed c)]) ∧ (w'.chans c).closed = true ∧ (∀ x d, ¬ Blocked w' x d c) ∧
      (∀ x d, w.cos x = .waiting (.op d c) none → ∃ w'', step w' (.resume x) = .ok (w'', [.ret x (closedRet d c)]) ∧ w''.cos x = .running) ∧
      (∀ x cases, w.cos x = .waiting (.select cases) none → (∃ cs ∈ cases, cs.ch = c) →
        ∃ w'' r, step w' (.resume x) = .ok (w'', [.ret x r]) ∧ w''.cos x = .running) := by
  obtain ⟨bufs, hI⟩ := h.inv
  obtain ⟨w', es, h1, h2, h3, h4, h5⟩ := close_inv hI co c
  rcases h5 with ⟨h5, _⟩ | ⟨_, rfl, hq, hcos⟩
  · rw [hc] at h5; simp at h5
  have hnb : ∀ x d, ¬ Blocked w' x d c := by
    intro x d hb
    obtain ⟨l, ⟨hl, _⟩, _⟩ := (blocked_iff h2.1 _ _ _).1 hb
    rw [hq d] at hl
    simp at hl
  refine ⟨w', by rw [step, if_pos ((isRunning_iff w co).2 hr)]; exact h1, h4, hnb, ?_, ?_⟩
  · intro x d hx
    rcases hcos x with g | ⟨wt, r, g1, g2, g3, g4, _⟩
    · exact absurd (Or.inl (g.trans hx)) (hnb x d)
    · rw [hx] at g1
      injection g1 with g1 _
      subst g1
      obtain ⟨w'', es, k1, _, _, k2, k3, _⟩ := resume_inv h2 x
      exact ⟨w'', by rw [step, k1, k2 d c r g2 g3], (k3 _ _ g2).1⟩
  · intro x cases hx hcs
    obtain ⟨cs, hcs, hch⟩ := hcs
    rcases hcos x with g | ⟨wt, r, g1, g2, g3, g4, _⟩
    · exact absurd (Or.inr ⟨cases, g.trans hx, cs, hcs, rfl, hch⟩) (hnb x cs.dir)
    · obtain ⟨w'', es, k1, _, _, _, k3, _⟩ := resume_inv h2 x
      obtain ⟨k4, ret, rfl⟩ := k3 _ _ g2
      exact ⟨w'', ret, k1, k4⟩

/-- C22: whatever happens later, the channel stays closed and accepts nothing. -/
theorem C22_stays_closed_partial {dflt : V} {declared : Nat → Nat} {ops : List (Op V)} {w : World V} {evs : List (Ev V)}
    (h : Reached dflt declared ops w evs) {c : Nat} (hc : (w.chans c).closed = true) (later : List (Op V)) (hs : ∀ op ∈ later, Safe op) :
    ∃ w' es, run w later = .ok (w', es) ∧ (w'.chans c).closed = true ∧ accepted c es = [] ∧ ∀ x d, ¬ Blocked w' x d c := by
  obtain ⟨bufs, hI⟩ := h.inv
  obtain ⟨w', es, bufs', h1, h2, h3⟩ := run_inv later hI hs
  obtain ⟨h4, h5⟩ := h3 c hc
  refine ⟨w', es, h1, h4, h5, fun x d hb => ?_⟩
  obtain ⟨l, hl, _⟩ := (blocked_iff h2.1 _ _ _).1 hb
  have := h2.2.1.closed _ _ _ hl
  rw [h4] at this
  simp at this

/-- C22: on a closed channel a send fails, a second close is reported, and a receive returns the oldest value the channel still holds, and
fails (a `try_recv` returns nothing) once it holds none. -/
theorem C22_after_close_partial {dflt : V} {declared : Nat → Nat} {ops : List (Op V)} {w : World V} {evs : List (Ev V)}
    (h : Reached dflt declared ops w evs) {c : Nat} (hc : (w.chans c).closed = true) {co : Nat} (hr : w.cos co = .running)
    {held : List V} (hh : accepted c evs = delivered c evs ++ held) :
    (∀ v t, ∃ w', step w (.send co c v t) = .ok (w', [.ret co (.sendClosed c)])) ∧
    (∃ w', step w (.close co c) = .ok (w', [.ret co (.closedAgain c)])) ∧
    (∀ t x xs, held = x :: xs → ∃ w' es, step w (.recv co c t) = .ok (w', es) ∧ es.getLast? = some (.ret co (.recvOk c x)) ∧ delivered c es = [x]) ∧
    (∀ t, held = [] → ∃ w', step w (.recv co c t) = .ok (w', [.ret co (if t = true then .recvNone c else .recvClosed c)])) := by
  obtain ⟨bufs, hI⟩ := h.inv
  have hb := hI.bufs_eq hh
  have hrn := (isRunning_iff w co).2 hr
  have hlv : ∀ d x, ¬ LiveIn w d c x := by
    intro d x hx
    have := hI.2.1.closed _ _ _ hx
    rw [hc] at this
    simp at this
  refine ⟨?_, ?_, ?_, ?_⟩
  · intro v t
    obtain ⟨w', es, bufs', h1, _, _, h4⟩ := send_inv hI hr c v t
    rw [step, if_pos hrn, h1]
    rcases h4 with ⟨_, h4, _⟩ | ⟨_, h4, _⟩ | ⟨h4, _⟩ | ⟨h4, _⟩
    · exact ⟨w', by rw [h4]⟩
    · rw [hc] at h4; simp at h4
    · have := h4.2.2; rw [hc] at this; simp at this
    · have := h4.2.2; rw [hc] at this; simp at this
  · obtain ⟨w', es, h1, _, _, _, h4⟩ := close_inv hI co c
    rw [step, if_pos hrn, h1]
    rcases h4 with ⟨_, h4⟩ | ⟨h4, _⟩
    · exact ⟨w', by rw [h4]⟩
    · rw [hc] at h4; simp at h4
  · intro t x xs hx
    obtain ⟨w', es, bufs', h1, _, _, h4⟩ := recv_inv hI hr c t
    rw [hx] at hb
    rw [step, if_pos hrn, h1]
    rcases h4 with ⟨v, g1, g2, g3, _⟩ | ⟨h4, _⟩ | ⟨h4, _⟩ | ⟨h4, _⟩
    · have := g3 x xs hb
      subst this
      exact ⟨w', es, rfl, g1, g2⟩
    · rw [hb] at h4; simp at h4
    · rw [hb] at h4; simp at h4
    · have := h4.1; rw [hb] at this; simp at this
  · intro t hx
    obtain ⟨w', es, bufs', h1, _, _, h4⟩ := recv_inv hI hr c t
    rw [hx] at hb
    rw [step, if_pos hrn, h1]
    rcases h4 with ⟨v, _, _, _, g⟩ | ⟨_, _, rfl, rfl, _⟩ | ⟨_, _, rfl, rfl, _⟩ | ⟨h4, _⟩
    · exact absurd (hlv .send) (g hb)
    · exact ⟨w', rfl⟩
    · exact ⟨w', rfl⟩
    · have := h4.2.2; rw [hc] at this; simp at this

/-! ### select -/

theorem held_le {decl : Nat → Nat} {w : World V} {bufs : Nat → List V} (hB : B decl w bufs) (c : Nat) : (bufs c).length ≤ decl c := by
  rw [← hB.len c]
  rcases hB.ring c with ⟨_, ⟨_, _, _, h⟩ | ⟨_, _, _, _, h, _⟩⟩
  · rw [h]; simp
  · omega

theorem notReady_iff {decl : Nat → Nat} {w : World V} {bufs : Nat → List V} {evs : List (Ev V)} (hI : Inv decl w bufs evs) (cs : Case V) :
    NotReady decl w bufs cs ↔ ¬ CaseReady w decl bufs cs := by
  have hbl : ∀ d c, (∀ x, ¬ LiveIn w d c x) ↔ ¬ ∃ x, Blocked w x d c := by
    intro d c
    constructor
    · rintro h ⟨x, hx⟩
      obtain ⟨l, hl, _⟩ := (blocked_iff hI.1 _ _ _).1 hx
      exact h l hl
    · intro h x hx
      exact h ⟨x.co, (blocked_iff hI.1 _ _ _).2 ⟨x, hx, rfl⟩⟩
  cases cs with
  | send c v =>
    have := held_le hI.2.1 c
    simp only [NotReady, CaseReady, hbl, not_or, Bool.not_eq_true]
    constructor
    · rintro ⟨h1, h2, h3⟩; exact ⟨h3, by omega, h2⟩
    · rintro ⟨h1, h2, h3⟩; exact ⟨by omega, h3, h1⟩
  | recv c b =>
    simp only [NotReady, CaseReady, hbl, not_or, Bool.not_eq_true, Decidable.not_not, ne_eq]
    constructor
    · rintro ⟨h1, h2, h3⟩; exact ⟨h3, by simpa using h1, h2⟩
    · rintro ⟨h1, h2, h3⟩; exact ⟨by simpa using h2, h3, h1⟩

/-- C44: a `select` performs a case that is ready (the first one), reports failure only for a closed channel, and stores a value exactly when
it received one; it takes `default`, or blocks when there is none, exactly when no case is ready. -/
theorem C44_select_partial {dflt : V} {declared : Nat → Nat} {ops : List (Op V)} {w : World V} {evs : List (Ev V)}
    (h : Reached dflt declared ops w evs) {co : Nat} (hr : w.cos co = .running) (held : Nat → List V)
    (hh : ∀ c, accepted c evs = delivered c evs ++ held c) (cases : List (Case V)) (try_ : Bool) (hs : Safe (.select co cases try_)) :
    ∃ w' es, step w (.select co cases try_) = .ok (w', es) ∧
      ((∃ (k : Nat) (cs : Case V), cases[k]? = some cs ∧ CaseReady w declared held cs ∧
          (∀ j, j < k → ∀ cs', cases[j]? = some cs' → ¬ CaseReady w declared held cs') ∧
          ∃ ok m, es.getLast? = some (.ret co (.picked k ok m)) ∧ (ok = false → (w.chans cs.ch).closed = true) ∧
            (m.isSome = true ↔ ok = true ∧ cs.dir = .recv)) ∨
       ((∀ cs ∈ cases, ¬ CaseReady w declared held cs) ∧
          ((try_ = true ∧ es = [.ret co .default]) ∨ (try_ = false ∧ es = [] ∧ w'.cos co = .waiting (.select cases) none)))) := by
  obtain ⟨bufs, hI⟩ := h.inv
  have hb : bufs = held := funext fun c => hI.bufs_eq (hh c)
  subst hb
  obtain ⟨w', es, bufs', h1, _, _, h4⟩ := select_inv hI hr cases try_ hs.1 hs.2
  refine ⟨w', es, by rw [step, if_pos ((isRunning_iff w co).2 hr)]; exact h1, ?_⟩
  rcases h4 with ⟨k, cs, g1, g2, g3, ok, m, g4, g5, g6⟩ | ⟨g1, _, g2⟩
  · refine Or.inl ⟨k, cs, g1, ?_, ?_, ok, m, g4, fun hok => (g5 hok).2, ?_⟩
    · rw [notReady_iff hI] at g2
      exact Classical.not_not.1 g2
    · intro j hj cs' hcs'
      exact (notReady_iff hI cs').1 (g3 j hj cs' hcs')
    · cases ok with
      | true => simpa using g6 rfl
      | false => rw [(g5 rfl).1]; simp
  · exact Or.inr ⟨fun cs hcs => (notReady_iff hI cs).1 (g1 cs hcs), g2⟩

/-- C44: a `select` that blocked reports the case whose communication happened: the last communication of the coroutine is that of the
reported case, with the value of the case (send) or the value it returns (receive); otherwise the case's channel was closed. -/
theorem C44_resumed_partial {dflt : V} {declared : Nat → Nat} {ops : List (Op V)} {w : World V} {evs : List (Ev V)}
    (h : Reached dflt declared ops w evs) {co : Nat} {cases : List (Case V)} {r : Wake V} (hw : w.cos co = .waiting (.select cases) (some r)) :
    ∃ w' k cs ok m, step w (.resume co) = .ok (w', [.ret co (.picked k ok m)]) ∧ cases[k]? = some cs ∧
      (ok = true → (∃ c v, cs = .send c v ∧ m = none ∧ lastComm co evs = some (.send, c, v)) ∨
        (∃ c b v, cs = .recv c b ∧ m = some v ∧ lastComm co evs = some (.recv, c, v))) ∧
      (ok = false → m = none ∧ (w.chans cs.ch).closed = true) := by
  obtain ⟨bufs, hI⟩ := h.inv
  obtain ⟨w', es, h1, _, _, _, _, _, h2⟩ := resume_inv hI co
  obtain ⟨cs, h3, h4, h5⟩ := hI.2.2.comm co _ _ hw
  refine ⟨w', r.idx, cs, r.ok, r.msg, by rw [step, h1, h2 _ _ hw], h3, fun hok => ?_, h5⟩
  obtain ⟨x, h6, h7⟩ := h4 hok
  cases cs with
  | send c v =>
    rcases h7 with ⟨g1, g2⟩ | ⟨g1, _⟩
    · have := Option.some.inj g1
      subst this
      exact Or.inl ⟨c, v, rfl, g2, h6⟩
    · simp [Case.msg] at g1
  | recv c b =>
    rcases h7 with ⟨g1, g2⟩ | ⟨_, g2⟩
    · simp [Case.msg] at g1
    · exact Or.inr ⟨c, b, x, rfl, g2, h6⟩

/-! ### What goes wrong -/

/-- C42 is false: `is_successful` answers false after every history, in particular after a successful send and receive. -/
theorem C42_never_successful_counterexample {dflt : V} {declared : Nat → Nat} {ops : List (Op V)} {w : World V} {evs : List (Ev V)}
    (h : Reached dflt declared ops w evs) (c : Nat) : (w.chans c).successful = false := by
  obtain ⟨bufs, hI⟩ := h.inv
  exact (hI.2.1.ring c).1

/-- ... for example here, where coroutine 0 sends and coroutine 1 receives. -/
example : ∃ w evs, run (init 0 fun _ => 1) [.send 0 5 42 false, .recv 1 5 false] = .ok (w, evs) ∧ returned 1 evs = [42] ∧ sentOk 0 evs = 1 ∧
    (w.chans 5).successful = false :=
  ⟨_, _, rfl, rfl, rfl, rfl⟩

/-- C43 is false: coroutine 0 is blocked sending on an unbuffered channel; a `select` of coroutine 1 that receives from that channel without
storing the value aborts the program, although the same `select` with a variable receives the value. -/
theorem C43_unbound_receive_counterexample :
    run (init 0 fun _ => 0) [.send 0 5 42 false, .select 1 [.recv 5 false] false] = .abort ∧
    ∃ w evs, run (init 0 fun _ => 0) [.send 0 5 42 false, .select 1 [.recv 5 true] false] = .ok (w, evs) ∧ returned 1 evs = [42] :=
  ⟨rfl, _, _, rfl, rfl⟩

/-! ### The hypotheses are met -/

/-- A history with blocking, a `select` over three cases, a close and a wake-up. -/
def demo : List (Op Nat) :=
  [.select 1 [.recv 5 true, .recv 6 true, .send 7 9] false, .send 0 5 42 false, .send 2 6 43 false, .send 2 6 44 false, .resume 1,
   .recv 1 6 false, .close 3 6, .recv 1 6 true, .resume 2, .send 0 6 1 true]

theorem demo_safe : ∀ op ∈ demo, Safe op := by
  intro op hop
  simp only [demo, List.mem_cons, List.not_mem_nil, or_false] at hop
  rcases hop with rfl | rfl | rfl | rfl | rfl | rfl | rfl | rfl | rfl | rfl <;> try trivial
  constructor
  · intro _ i j k x hij hjk hi hk
    have : k < 3 := by
      have := (List.getElem?_eq_some_iff.1 hk).1
      simpa using this
    have : i = 0 ∧ j = 1 ∧ k = 2 := by omega
    obtain ⟨rfl, rfl, rfl⟩ := this
    simp [Case.ch] at hi hk
    omega
  · intro cs hcs
    simp only [List.mem_cons, List.not_mem_nil, or_false] at hcs
    rcases hcs with rfl | rfl | rfl <;> rfl

example : ∃ w evs, Reached 0 (fun c => if c = 6 then 1 else 0) demo w evs ∧ accepted 5 evs = [42] ∧ delivered 6 evs = [43, 44] ∧ accepted 6 evs = [43, 44] ∧
    returned 1 evs = [42, 43, 44] ∧ (w.chans 6).closed = true :=
  ⟨_, _, ⟨demo_safe, rfl⟩, rfl, rfl, rfl, rfl, rfl⟩

/-- Here the `select` of coroutine 1 has been woken through its second case and has not run yet. -/
example : ∃ w evs, run (init 0 fun _ => 0) [.select 1 [.recv 5 true, .recv 6 true] false, .send 0 6 42 false] = .ok (w, evs) ∧
    w.cos 1 = .waiting (.select [.recv 5 true, .recv 6 true]) (some ⟨1, true, some 42⟩) ∧ lastComm 1 evs = some (.recv, 6, 42) :=
  ⟨_, _, rfl, rfl, rfl⟩

end Nature.Chan
