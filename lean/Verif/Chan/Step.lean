import Verif.Chan.Inv
import Verif.Chan.Spec
import Verif.Chan.LockProps
/-! Every step of the channel model preserves the invariants. -/
set_option linter.unusedSectionVars false
set_option linter.unusedSimpArgs false
namespace Nature.Chan
open Nature
variable {V : Type}

def LiveIn (w : World V) (d : Dir) (c : Nat) (l : Lnk V) : Prop := l ∈ w.q d c ∧ Live w l

/-- Buffers, capacities, and why the waiting coroutines wait. -/
structure B (decl : Nat → Nat) (w : World V) (bufs : Nat → List V) : Prop where
  ring : ∀ c, RingOk (w.chans c) (bufs c)
  len : ∀ c, (w.chans c).buf.length - 1 = decl c
  full : ∀ c l, LiveIn w .send c l → (bufs c).length = decl c
  empty : ∀ c l, LiveIn w .recv c l → bufs c = []
  pair : ∀ c x y, LiveIn w .recv c x → LiveIn w .send c y → x.co = y.co
  closed : ∀ d c l, LiveIn w d c l → (w.chans c).closed = false

/-- What a woken coroutine is told agrees with what happened. -/
def CommOk (w : World V) (evs : List (Ev V)) (co : Nat) (wt : Wait V) (r : Wake V) : Prop :=
  match wt with
  | .op d c => (r.ok = true → ∃ x, lastComm co evs = some (d, c, x) ∧ (d = .recv → r.msg = some x)) ∧ (r.ok = false → r.msg = none ∧ (w.chans c).closed = true)
  | .select cases => ∃ cs, cases[r.idx]? = some cs ∧
      (r.ok = true → ∃ x, lastComm co evs = some (cs.dir, cs.ch, x) ∧ (cs.msg = some x ∧ r.msg = none ∨ cs.msg = none ∧ r.msg = some x)) ∧
      (r.ok = false → r.msg = none ∧ (w.chans cs.ch).closed = true)

/-- The relation between the state and what happened so far. -/
structure Lg (w : World V) (bufs : Nat → List V) (evs : List (Ev V)) : Prop where
  fifo : ∀ c, accepted c evs = delivered c evs ++ bufs c
  arr : ∀ c, (acceptedAt c evs).Pairwise (· < ·)
  arrLt : ∀ c, ∀ a ∈ acceptedAt c evs, a < w.clock
  arrLive : ∀ c, ∀ a ∈ acceptedAt c evs, ∀ l, LiveIn w .send c l → a < l.arr
  order : ∀ c, (w.q .send c).Pairwise fun x y => x.arr < y.arr ∨ x.co = y.co
  gotR : ∀ co, deliveredTo co evs = returned co evs ++ inFlight (w.cos co)
  gotS : ∀ co, acceptedFrom co evs = sentOk co evs + inFlightSend (w.cos co)
  bnd : ∀ d c l, l ∈ w.q d c → l.bound = true
  comm : ∀ co wt r, w.cos co = .waiting wt (some r) → CommOk w evs co wt r

theorem lastComm_append (co : Nat) (x y : List (Ev V)) : lastComm co (x ++ y) = (lastComm co y).or (lastComm co x) := by
  induction x with
  | nil => simp [lastComm, commOf]
  | cons e x ih =>
    rw [List.cons_append, lastComm, ih, lastComm, Option.or_assoc]

theorem CommOk_mono {w w' : World V} {evs es : List (Ev V)} {co : Nat} {wt : Wait V} {r : Wake V} (h : CommOk w evs co wt r)
    (hes : lastComm co es = none) (hcl : ∀ c, (w.chans c).closed = true → (w'.chans c).closed = true) : CommOk w' (evs ++ es) co wt r := by
  have he : lastComm co (evs ++ es) = lastComm co evs := by rw [lastComm_append, hes]; rfl
  cases wt with
  | op d c =>
    simp only [CommOk, he] at h ⊢
    exact ⟨h.1, fun hr => ⟨(h.2 hr).1, hcl _ (h.2 hr).2⟩⟩
  | select cases =>
    simp only [CommOk, he] at h ⊢
    obtain ⟨cs, h1, h2, h3⟩ := h
    exact ⟨cs, h1, h2, fun hr => ⟨(h3 hr).1, hcl _ (h3 hr).2⟩⟩

theorem accepted_append (c : Nat) (x y : List (Ev V)) : accepted c (x ++ y) = accepted c x ++ accepted c y := List.filterMap_append
theorem acceptedAt_append (c : Nat) (x y : List (Ev V)) : acceptedAt c (x ++ y) = acceptedAt c x ++ acceptedAt c y := List.filterMap_append
theorem delivered_append (c : Nat) (x y : List (Ev V)) : delivered c (x ++ y) = delivered c x ++ delivered c y := List.filterMap_append
theorem deliveredTo_append (c : Nat) (x y : List (Ev V)) : deliveredTo c (x ++ y) = deliveredTo c x ++ deliveredTo c y := List.filterMap_append
theorem returned_append (c : Nat) (x y : List (Ev V)) : returned c (x ++ y) = returned c x ++ returned c y := List.filterMap_append
theorem acceptedFrom_append (c : Nat) (x y : List (Ev V)) : acceptedFrom c (x ++ y) = acceptedFrom c x + acceptedFrom c y := List.countP_append
theorem sentOk_append (c : Nat) (x y : List (Ev V)) : sentOk c (x ++ y) = sentOk c x + sentOk c y := List.countP_append

/-- Steps in which nobody new starts waiting. -/
theorem step_frame {decl : Nat → Nat} {w w' : World V} {bufs bufs' : Nat → List V} {evs es : List (Ev V)} (hB : B decl w bufs) (hL : Lg w bufs evs)
    (hclock : w.clock ≤ w'.clock)
    (hring : ∀ c, RingOk (w'.chans c) (bufs' c) ∧ (w'.chans c).buf.length = (w.chans c).buf.length)
    (hsub : ∀ d c, (w'.q d c).Sublist (w.q d c))
    (hlive : ∀ l, Live w' l → Live w l)
    (hb1 : ∀ c l, LiveIn w' .send c l → (bufs' c).length = (bufs c).length)
    (hb2 : ∀ c l, LiveIn w' .recv c l → bufs' c = bufs c)
    (hb3 : ∀ d c l, LiveIn w' d c l → (w'.chans c).closed = (w.chans c).closed)
    (hfifo : ∀ c, bufs c ++ accepted c es = delivered c es ++ bufs' c)
    (harr : ∀ c, acceptedAt c es = [] ∨ ∃ a, acceptedAt c es = [a] ∧ a < w'.clock ∧ (∀ x ∈ acceptedAt c evs, x < a) ∧
      ∀ l, LiveIn w' .send c l → a < l.arr)
    (hR : ∀ co, inFlight (w.cos co) ++ deliveredTo co es = returned co es ++ inFlight (w'.cos co))
    (hSn : ∀ co, inFlightSend (w.cos co) + acceptedFrom co es = sentOk co es + inFlightSend (w'.cos co))
    (hclm : ∀ c, (w.chans c).closed = true → (w'.chans c).closed = true)
    (hcm : ∀ co wt r, w'.cos co = .waiting wt (some r) → (w.cos co = .waiting wt (some r) ∧ lastComm co es = none) ∨ CommOk w' (evs ++ es) co wt r) :
    B decl w' bufs' ∧ Lg w' bufs' (evs ++ es) := by
  have hin : ∀ d c l, LiveIn w' d c l → LiveIn w d c l := fun d c l h => ⟨(hsub d c).subset h.1, hlive l h.2⟩
  refine ⟨⟨fun c => (hring c).1, fun c => by rw [(hring c).2]; exact hB.len c, ?_, ?_, ?_, ?_⟩, ?_⟩
  · intro c l h
    rw [hb1 c l h]; exact hB.full c l (hin _ _ _ h)
  · intro c l h
    rw [hb2 c l h]; exact hB.empty c l (hin _ _ _ h)
  · intro c x y hx hy
    exact hB.pair c x y (hin _ _ _ hx) (hin _ _ _ hy)
  · intro d c l h
    rw [hb3 d c l h]; exact hB.closed d c l (hin _ _ _ h)
  constructor
  · intro c
    rw [accepted_append, delivered_append, hL.fifo, List.append_assoc, hfifo, List.append_assoc]
  · intro c
    rw [acceptedAt_append]
    rcases harr c with h | ⟨a, h, _, h2, _⟩
    · rw [h, List.append_nil]; exact hL.arr c
    · rw [h, List.pairwise_append]
      exact ⟨hL.arr c, by simp, fun x hx y hy => by rw [List.mem_singleton.1 hy]; exact h2 x hx⟩
  · intro c x hx
    rw [acceptedAt_append, List.mem_append] at hx
    rcases hx with hx | hx
    · exact Nat.lt_of_lt_of_le (hL.arrLt c x hx) hclock
    · rcases harr c with h | ⟨a, h, h1, _⟩
      · rw [h] at hx; simp at hx
      · rw [h] at hx; rw [List.mem_singleton.1 hx]; exact h1
  · intro c x hx l hl
    rw [acceptedAt_append, List.mem_append] at hx
    rcases hx with hx | hx
    · exact hL.arrLive c x hx l (hin _ _ _ hl)
    · rcases harr c with h | ⟨a, h, _, _, h1⟩
      · rw [h] at hx; simp at hx
      · rw [h] at hx; rw [List.mem_singleton.1 hx]; exact h1 l hl
  · intro c
    exact (hL.order c).sublist (hsub _ c)
  · intro co
    rw [deliveredTo_append, returned_append, hL.gotR, List.append_assoc, hR, List.append_assoc]
  · intro co
    rw [acceptedFrom_append, sentOk_append, hL.gotS]
    have := hSn co
    omega
  · intro d c l h
    exact hL.bnd d c l ((hsub d c).subset h)
  · intro co wt r h
    rcases hcm co wt r h with ⟨h1, h2⟩ | h1
    · exact CommOk_mono (hL.comm co wt r h1) h2 hclm
    · exact h1

/-- Steps in which the coroutine `co` starts waiting. -/
theorem park_frame {decl : Nat → Nat} {w : World V} {bufs : Nat → List V} {evs : List (Ev V)} (hS : S w) (hB : B decl w bufs) (hL : Lg w bufs evs)
    {co : Nat} (hr : w.cos co = .running) (wt : Wait V) (nw : Dir → Nat → List (Lnk V))
    (hco : ∀ d c l, l ∈ nw d c → l.co = co ∧ l.arr = w.clock ∧ l.bound = true)
    (hs : ∀ c l, l ∈ nw .send c → (bufs c).length = decl c ∧ (∀ x, ¬ LiveIn w .recv c x) ∧ (w.chans c).closed = false)
    (hrv : ∀ c l, l ∈ nw .recv c → bufs c = [] ∧ (∀ x, ¬ LiveIn w .send c x) ∧ (w.chans c).closed = false) :
    B decl { w with q := fun d c => w.q d c ++ nw d c, cos := upd w.cos co (.waiting wt none), clock := w.clock + 1 } bufs ∧
    Lg { w with q := fun d c => w.q d c ++ nw d c, cos := upd w.cos co (.waiting wt none), clock := w.clock + 1 } bufs evs := by
  have hin : ∀ d c l, LiveIn { w with q := fun d c => w.q d c ++ nw d c, cos := upd w.cos co (.waiting wt none), clock := w.clock + 1 } d c l →
      LiveIn w d c l ∨ l ∈ nw d c := by
    rintro d c l ⟨h1, wt', h2⟩
    simp only [List.mem_append] at h1 h2
    rcases h1 with h1 | h1
    · rw [upd_ne _ _ (no_entry hS hr h1)] at h2
      exact Or.inl ⟨h1, wt', h2⟩
    · exact Or.inr h1
  refine ⟨⟨hB.ring, hB.len, ?_, ?_, ?_, ?_⟩, ?_⟩
  · intro c l h
    rcases hin _ _ _ h with h | h
    · exact hB.full c l h
    · exact (hs c l h).1
  · intro c l h
    rcases hin _ _ _ h with h | h
    · exact hB.empty c l h
    · exact (hrv c l h).1
  · intro c x y hx hy
    rcases hin _ _ _ hx with hx | hx <;> rcases hin _ _ _ hy with hy | hy
    · exact hB.pair c x y hx hy
    · exact absurd hx ((hs c y hy).2.1 x)
    · exact absurd hy ((hrv c x hx).2.1 y)
    · rw [(hco _ _ _ hx).1, (hco _ _ _ hy).1]
  · intro d c l h
    rcases hin _ _ _ h with h | h
    · exact hB.closed d c l h
    · cases d with
      | send => exact (hs c l h).2.2
      | recv => exact (hrv c l h).2.2
  constructor
  · exact hL.fifo
  · exact hL.arr
  · intro c a ha
    have := hL.arrLt c a ha
    simp only; omega
  · intro c a ha l hl
    rcases hin _ _ _ hl with hl | hl
    · exact hL.arrLive c a ha l hl
    · rw [(hco _ _ _ hl).2.1]; exact hL.arrLt c a ha
  · intro c
    rw [List.pairwise_append]
    refine ⟨hL.order c, ?_, ?_⟩
    · rw [List.pairwise_iff_forall_sublist]
      intro x y hxy
      have hx : x ∈ nw .send c := hxy.subset (by simp)
      have hy : y ∈ nw .send c := hxy.subset (by simp)
      exact Or.inr (by rw [(hco _ _ _ hx).1, (hco _ _ _ hy).1])
    · intro x hx y hy
      refine Or.inl ?_
      rw [(hco _ _ _ hy).2.1]
      exact (hS.entry _ _ _ hx).2.2
  · intro co'
    by_cases h : co' = co
    · subst h
      simp only [upd_same]
      have := hL.gotR co'
      rw [hr] at this
      exact this
    · simp only [upd_ne _ _ h]; exact hL.gotR co'
  · intro co'
    by_cases h : co' = co
    · subst h
      simp only [upd_same]
      have := hL.gotS co'
      rw [hr] at this
      exact this
    · simp only [upd_ne _ _ h]; exact hL.gotS co'
  · intro d c l h
    rcases List.mem_append.1 h with h | h
    · exact hL.bnd d c l h
    · exact (hco _ _ _ h).2.2
  · intro co' wt' r h
    simp only at h
    by_cases hc : co' = co
    · subst hc
      rw [upd_same] at h
      injection h with _ h
      simp at h
    · rw [upd_ne _ _ hc] at h
      have := CommOk_mono (w' := { w with q := fun d c => w.q d c ++ nw d c, cos := upd w.cos co (.waiting wt none), clock := w.clock + 1 }) (es := [])
        (hL.comm co' wt' r h) rfl (fun _ h => h)
      simpa using this

/-- The invariant. -/
def Inv (decl : Nat → Nat) (w : World V) (bufs : Nat → List V) (evs : List (Ev V)) : Prop := S w ∧ B decl w bufs ∧ Lg w bufs evs

/-- Only entries of `select`s that were already woken may disappear. -/
def Pruned (w w' : World V) : Prop :=
  w'.chans = w.chans ∧ w'.cos = w.cos ∧ w'.done = w.done ∧ w'.clock = w.clock ∧ (∀ d c, (w'.q d c).Sublist (w.q d c)) ∧
    ∀ d c l, l ∈ w.q d c → Live w l → l ∈ w'.q d c

theorem Pruned.refl (w : World V) : Pruned w w := ⟨rfl, rfl, rfl, rfl, fun _ _ => .refl _, fun _ _ _ h _ => h⟩

theorem Live_congr {w w' : World V} (h : w'.cos = w.cos) (l : Lnk V) : Live w' l ↔ Live w l := by unfold Live; rw [h]

theorem Pruned.trans {a b c : World V} (h : Pruned a b) (h' : Pruned b c) : Pruned a c := by
  obtain ⟨h1, h2, h3, h4, h5, h6⟩ := h
  obtain ⟨g1, g2, g3, g4, g5, g6⟩ := h'
  exact ⟨g1.trans h1, g2.trans h2, g3.trans h3, g4.trans h4, fun d c => (g5 d c).trans (h5 d c),
    fun d x l hl hv => g6 d x l (h6 d x l hl hv) ((Live_congr h2 l).2 hv)⟩

theorem Pruned.liveIn {w w' : World V} (h : Pruned w w') (d : Dir) (c : Nat) (l : Lnk V) : LiveIn w' d c l ↔ LiveIn w d c l := by
  obtain ⟨h1, h2, h3, h4, h5, h6⟩ := h
  exact ⟨fun h => ⟨(h5 d c).subset h.1, (Live_congr h2 l).1 h.2⟩, fun h => ⟨h6 d c l h.1 h.2, (Live_congr h2 l).2 h.2⟩⟩

theorem prune_inv {decl : Nat → Nat} {w : World V} {bufs : Nat → List V} {evs : List (Ev V)} (h : Inv decl w bufs evs) {d c}
    (hdead : ∀ l ∈ w.q d c, ¬ Live w l) :
    Inv decl { w with q := updq w.q d c [] } bufs evs ∧ Pruned w { w with q := updq w.q d c [] } := by
  have hsub : ∀ d' c', (updq w.q d c [] d' c').Sublist (w.q d' c') := by
    intro d' c'
    unfold updq
    split
    · exact List.nil_sublist _
    · exact .refl _
  refine ⟨⟨S_prune h.1 hdead, ?_⟩, rfl, rfl, rfl, rfl, hsub, ?_⟩
  · have := step_frame (w' := { w with q := updq w.q d c [] }) (es := []) h.2.1 h.2.2 (Nat.le_refl _) (fun c => ⟨h.2.1.ring c, rfl⟩) hsub
      (fun l h => h) (fun _ _ _ => rfl) (fun _ _ _ => rfl) (fun _ _ _ _ => rfl) (by simp [accepted, delivered]) (by simp [acceptedAt])
      (by simp [deliveredTo, returned]) (by simp [acceptedFrom, sentOk]) (fun _ h => h) (fun _ _ _ h => Or.inl ⟨h, rfl⟩)
    simpa using this
  · intro d' c' l hl hv
    simp only
    rw [updq_ne]
    · exact hl
    · rintro ⟨rfl, rfl⟩
      exact hdead l hl hv

/-- Closed channels stay closed and accept nothing. -/
def ClosedOk (w w' : World V) (es : List (Ev V)) : Prop :=
  ∀ c, (w.chans c).closed = true → (w'.chans c).closed = true ∧ accepted c es = []

theorem not_live_woken {w : World V} {co : Nat} {wt : Wait V} {r : Wake V} {x : Lnk V} {q done chans clock}
    (h : Live (V := V) ⟨chans, q, upd w.cos co (.waiting wt (some r)), done, clock⟩ x) : x.co ≠ co ∧ Live w x := by
  obtain ⟨wt', h⟩ := h
  simp only at h
  by_cases hx : x.co = co
  · rw [hx, upd_same] at h
    injection h with _ h
    simp at h
  · rw [upd_ne _ _ hx] at h
    exact ⟨hx, wt', h⟩

theorem updq_sublist {q : Dir → Nat → List (Lnk V)} {d : Dir} {c : Nat} {l : List (Lnk V)} (h : l.Sublist (q d c)) (d' : Dir) (c' : Nat) :
    (updq q d c l d' c').Sublist (q d' c') := by
  unfold updq
  split
  · rename_i he; rw [he.1, he.2]; exact h
  · exact .refl _

theorem rest_sublist {q : List (Lnk V)} {pre rest : List (Lnk V)} {l : Lnk V} (h : q = pre ++ l :: rest) : rest.Sublist q := by
  rw [h]
  exact (List.sublist_cons_self l rest).trans (List.sublist_append_right pre (l :: rest))

/-- Where the entry `l` says its coroutine waits. -/
theorem entry_wait {w : World V} (hS : S w) {d : Dir} {c : Nat} {l : Lnk V} (hmem : l ∈ w.q d c) {wt : Wait V} {r : Option (Wake V)}
    (hwt : w.cos l.co = .waiting wt r) :
    wt = .op d c ∨ ∃ cases cs, wt = .select cases ∧ cases[l.idx]? = some cs ∧ cs.dir = d ∧ cs.ch = c ∧ cs.msg = l.msg := by
  rcases (hS.entry d c l hmem).1 with ⟨_, _, h, _⟩ | ⟨_, cases, r, cs, h3, h4, h5, h6, h7, _⟩
  · rw [h] at hwt
    injection hwt with hwt _
    exact Or.inl hwt.symm
  · rw [h3] at hwt
    injection hwt with hwt _
    exact Or.inr ⟨cases, cs, hwt.symm, h4, h5, h6, h7⟩

theorem CommOk_wake {w w' : World V} (hS : S w) {d : Dir} {c : Nat} {l : Lnk V} (hmem : l ∈ w.q d c) {wt : Wait V} {r : Option (Wake V)}
    (hwt : w.cos l.co = .waiting wt r) {evs : List (Ev V)} {x : V} (hlast : lastComm l.co evs = some (d, c, x)) {m : Option V}
    (hm : (d = .send ∧ l.msg = some x ∧ m = none) ∨ (d = .recv ∧ m = some x)) : CommOk w' evs l.co wt ⟨l.idx, true, m⟩ := by
  rcases entry_wait hS hmem hwt with rfl | ⟨cases, cs, rfl, h1, h2, h3, h4⟩
  · refine ⟨fun _ => ⟨x, hlast, ?_⟩, by simp⟩
    rintro rfl
    rcases hm with ⟨h, _⟩ | ⟨_, h⟩
    · simp at h
    · exact h
  · refine ⟨cs, h1, fun _ => ⟨x, by rw [h2, h3]; exact hlast, ?_⟩, by simp⟩
    rcases hm with ⟨_, g2, g3⟩ | ⟨g1, g2⟩
    · exact Or.inl ⟨by rw [h4, g2], g3⟩
    · refine Or.inr ⟨?_, g2⟩
      cases cs with
      | recv _ _ => rfl
      | send _ _ => rw [g1] at h2; simp [Case.dir] at h2

/-- Handing a value to a waiting receiver. -/
theorem rtSend_inv {decl : Nat → Nat} {w : World V} {bufs : Nat → List V} {evs : List (Ev V)} (h : Inv decl w bufs evs) {co : Nat}
    (hr : w.cos co = .running) {c : Nat} {pre rest : List (Lnk V)} {l : Lnk V} (hq : w.q .recv c = pre ++ l :: rest)
    (hpre : ∀ x ∈ pre, ¬ Live w x) (hlive : Live w l) (v : V) (r : Ret V) (hr1 : r.value = none) (hr2 : r.isSent = true) :
    ∃ w' es, rtSend w c l rest (done' w.done l) co v r = .ok (w', es) ∧ Inv decl w' bufs (evs ++ es) ∧ ClosedOk w w' es ∧
      es = [.sent c co v w.clock, .rcvd c l.co v, .ret co r] ∧ w'.cos co = .running := by
  obtain ⟨hS, hB, hL⟩ := h
  have hmem : l ∈ w.q .recv c := by rw [hq]; simp
  have hbnd := hL.bnd _ _ _ hmem
  have hLI : LiveIn w .recv c l := ⟨hmem, hlive⟩
  have hne : l.co ≠ co := no_entry hS hr hmem
  obtain ⟨wt, hwt, hwake, hS'⟩ := S_take hS hq hpre hlive true (some v) (by simp)
  refine ⟨_, _, by unfold rtSend; rw [if_pos hbnd, hwake, Res.bind_ok], ⟨?_, ?_⟩, ?_, rfl, ?_⟩
  · exact S_chans hS' w.chans (w.clock + 1) (Nat.le_succ _)
  · refine step_frame hB hL (Nat.le_succ _) (fun c => ⟨hB.ring c, rfl⟩) (updq_sublist (rest_sublist hq)) ?_ (fun _ _ _ => rfl) (fun _ _ _ => rfl)
      (fun _ _ _ _ => rfl) ?_ ?_ ?_ ?_ ?_ ?_
    · intro x hx
      exact (not_live_woken hx).2
    · intro c'
      by_cases hc : c = c'
      · subst hc
        have := hB.empty c l hLI
        simp [accepted, delivered, this]
      · simp [accepted, delivered, hc]
    · intro c'
      by_cases hc : c = c'
      · subst hc
        refine Or.inr ⟨w.clock, by simp [acceptedAt], Nat.lt_succ_self _, hL.arrLt c, ?_⟩
        rintro y ⟨hy1, hy2⟩
        obtain ⟨hy2, hy3⟩ := not_live_woken hy2
        simp only at hy1
        rw [updq_ne _ _ (by simp)] at hy1
        exact absurd (hB.pair c l y hLI ⟨hy1, hy3⟩).symm hy2
      · exact Or.inl (by simp [acceptedAt, hc])
    · intro co'
      simp only
      by_cases h1 : co' = l.co
      · subst h1
        rw [hwt, upd_same]
        simp [inFlight, deliveredTo, returned, hne.symm]
      · rw [upd_ne _ _ h1]
        by_cases h2 : co = co'
        · subst h2
          simp [deliveredTo, returned, Ne.symm h1, hr1]
        · simp [deliveredTo, returned, Ne.symm h1, h2]
    · intro co'
      simp only
      by_cases h1 : co' = l.co
      · subst h1
        rw [hwt, upd_same]
        simp [inFlightSend, acceptedFrom, sentOk, hne.symm]
      · rw [upd_ne _ _ h1]
        by_cases h2 : co = co'
        · subst h2
          simp [acceptedFrom, sentOk, Ne.symm h1, hr2]
          omega
        · simp [acceptedFrom, sentOk, Ne.symm h1, h2]
    · exact fun _ h => h
    · intro co' wt' r' h
      simp only at h
      by_cases h1 : co' = l.co
      · subst h1
        rw [upd_same] at h
        injection h with h h'
        injection h' with h'
        subst h h'
        exact Or.inr (CommOk_wake hS hmem hwt (x := v) (by rw [lastComm_append]; simp [lastComm, commOf]) (Or.inr ⟨rfl, rfl⟩))
      · rw [upd_ne _ _ h1] at h
        have h2 : co ≠ co' := by rintro rfl; rw [hr] at h; simp at h
        exact Or.inl ⟨h, by simp [lastComm, commOf, h2, Ne.symm h1]⟩
  · intro c' hc'
    refine ⟨hc', ?_⟩
    have hcl := hB.closed _ _ _ hLI
    have : c ≠ c' := by rintro rfl; rw [hcl] at hc'; simp at hc'
    simp [accepted, this]
  · simp only
    rw [upd_ne _ _ hne.symm]; exact hr

/-- Taking from a waiting sender. -/
theorem rtRecv_inv {decl : Nat → Nat} {w : World V} {bufs : Nat → List V} {evs : List (Ev V)} (h : Inv decl w bufs evs) {co : Nat}
    (hr : w.cos co = .running) {c : Nat} {pre rest : List (Lnk V)} {l : Lnk V} (hq : w.q .send c = pre ++ l :: rest)
    (hpre : ∀ x ∈ pre, ¬ Live w x) (hlive : Live w l) (r : V → Ret V) (hr1 : ∀ v, (r v).value = some v) (hr2 : ∀ v, (r v).isSent = false) :
    ∃ w' es bufs' v, rtRecv w c l rest (done' w.done l) co true r = .ok (w', es) ∧ Inv decl w' bufs' (evs ++ es) ∧ ClosedOk w w' es ∧
      (∃ x, bufs c ++ [x] = v :: bufs' c ∧ (es = [.sent c l.co v l.arr, .rcvd c co v, .ret co (r v)] ∨ es = [.rcvd c co v, .sent c l.co x l.arr, .ret co (r v)])) ∧
      w'.cos co = .running := by
  obtain ⟨hS, hB, hL⟩ := h
  have hmem : l ∈ w.q .send c := by rw [hq]; simp
  have hLI : LiveIn w .send c l := ⟨hmem, hlive⟩
  have hne : l.co ≠ co := no_entry hS hr hmem
  obtain ⟨wt, hwt, hwake, hS'⟩ := S_take hS hq hpre hlive true none (by simp)
  have hmsg := (hS.entry _ _ _ hmem).2.1 rfl
  obtain ⟨v, hv⟩ := Option.isSome_iff_exists.1 hmsg
  have harr : ∀ y, y ∈ w.q .send c → Live w y → y.co ≠ l.co → l.arr < y.arr := by
    intro y hy1 hy2 hy3
    rw [hq] at hy1
    rcases List.mem_append.1 hy1 with hy1 | hy1
    · exact absurd hy2 (hpre y hy1)
    · have := hL.order c
      rw [hq, List.pairwise_append] at this
      have := this.2.1
      rw [List.pairwise_cons] at this
      rcases List.mem_cons.1 hy1 with rfl | hy1
      · exact absurd rfl hy3
      · rcases this.1 y hy1 with h | h
        · exact h
        · exact absurd h.symm hy3
  have hcl := hB.closed _ _ _ hLI
  unfold rtRecv
  rw [if_neg (by simp), hv]
  simp only
  rw [hwake, Res.bind_ok]
  by_cases he : bufEmpty (w.chans c) = true
  · have hbe := (ring_empty (hB.ring c)).1 he
    rw [if_pos he]
    refine ⟨_, _, bufs, v, rfl, ⟨?_, ?_⟩, ?_, ⟨v, by rw [hbe]; rfl, Or.inl rfl⟩, ?_⟩
    · exact S_chans hS' w.chans (w.clock + 1) (Nat.le_succ _)
    · refine step_frame hB hL (Nat.le_succ _) (fun c => ⟨hB.ring c, rfl⟩) (updq_sublist (rest_sublist hq)) ?_ (fun _ _ _ => rfl) (fun _ _ _ => rfl)
        (fun _ _ _ _ => rfl) ?_ ?_ ?_ ?_ ?_ ?_
      · intro x hx
        exact (not_live_woken hx).2
      · intro c'
        by_cases hc : c = c'
        · subst hc
          simp [accepted, delivered, hbe]
        · simp [accepted, delivered, hc]
      · intro c'
        by_cases hc : c = c'
        · subst hc
          refine Or.inr ⟨l.arr, by simp [acceptedAt], Nat.lt_succ_of_lt (hS.entry _ _ _ hmem).2.2, fun x hx => hL.arrLive c x hx l hLI, ?_⟩
          rintro y ⟨hy1, hy2⟩
          obtain ⟨hy2, hy3⟩ := not_live_woken hy2
          exact harr y ((updq_sublist (rest_sublist hq) _ _).subset hy1) hy3 hy2
        · exact Or.inl (by simp [acceptedAt, hc])
      · intro co'
        simp only
        by_cases h1 : co' = l.co
        · subst h1
          rw [hwt, upd_same]
          simp [inFlight, deliveredTo, returned, hne.symm]
        · rw [upd_ne _ _ h1]
          have hif : co = co' → inFlight (w.cos co') = [] := by rintro rfl; rw [hr]; rfl
          by_cases h2 : co = co'
          · simp [deliveredTo, returned, h2, hr1, hif h2]
          · simp [deliveredTo, returned, h2]
      · intro co'
        simp only
        by_cases h1 : co' = l.co
        · subst h1
          rw [hwt, upd_same]
          simp [inFlightSend, acceptedFrom, sentOk, hne.symm]
        · rw [upd_ne _ _ h1]
          simp [acceptedFrom, sentOk, Ne.symm h1, hr2]
      · exact fun _ h => h
      · intro co' wt' r' h
        simp only at h
        by_cases h1 : co' = l.co
        · subst h1
          rw [upd_same] at h
          injection h with h h'
          injection h' with h'
          subst h h'
          exact Or.inr (CommOk_wake hS hmem hwt (x := v) (by rw [lastComm_append]; simp [lastComm, commOf, hne.symm]) (Or.inl ⟨rfl, hv, rfl⟩))
        · rw [upd_ne _ _ h1] at h
          have h2 : co ≠ co' := by rintro rfl; rw [hr] at h; simp at h
          exact Or.inl ⟨h, by simp [lastComm, commOf, h2, Ne.symm h1]⟩
    · intro c' hc'
      refine ⟨hc', ?_⟩
      have : c ≠ c' := by rintro rfl; rw [hcl] at hc'; simp at hc'
      simp [accepted, this]
    · simp only
      rw [upd_ne _ _ hne.symm]; exact hr
  · rw [if_neg he]
    have hfull : bufFull (w.chans c) = true := by
      rw [ring_full (hB.ring c), hB.len]; exact hB.full c l hLI
    rw [if_neg (by simp [hfull])]
    cases hbc : bufs c with
    | nil => exact absurd ((ring_empty (hB.ring c)).2 hbc) he
    | cons x xs =>
      have hring := hB.ring c
      rw [hbc] at hring
      obtain ⟨ch, hp1, hp2, hp3, hp4⟩ := ring_pop hring
      have hfl := hB.full c l hLI
      have hlen := hB.len c
      rw [hbc] at hfl
      have hnf : bufFull ch = false := by
        cases hh : bufFull ch with
        | false => rfl
        | true => rw [ring_full hp2, hp3, hlen, ← hfl] at hh; simp at hh
      obtain ⟨ch', hu1, hu2, hu3, hu4⟩ := ring_push hp2 hnf v
      rw [hp1, Res.bind_ok]
      simp only
      rw [hu1, Res.bind_ok]
      refine ⟨_, _, upd bufs c (xs ++ [v]), x, rfl, ⟨?_, ?_⟩, ?_, ⟨v, by rw [upd_same]; rfl, Or.inr rfl⟩, ?_⟩
      · exact S_chans hS' _ (w.clock + 1) (Nat.le_succ _)
      · refine step_frame hB hL (Nat.le_succ _) ?_ (updq_sublist (rest_sublist hq)) ?_ ?_ ?_ ?_ ?_ ?_ ?_ ?_ ?_ ?_
        · intro c'
          by_cases hc : c' = c
          · subst hc
            simp only [upd_same]
            exact ⟨hu2, by omega⟩
          · simp only [upd_ne _ _ hc]
            exact ⟨hB.ring c', trivial⟩
        · intro x hx
          exact (not_live_woken hx).2
        · intro c' y hy
          by_cases hc : c' = c
          · subst hc
            rw [upd_same, hbc]; simp
          · rw [upd_ne _ _ hc]
        · intro c' y hy
          by_cases hc : c' = c
          · subst hc
            have hy' : LiveIn w .recv c' y := ⟨(updq_sublist (rest_sublist hq) _ _).subset hy.1, (not_live_woken hy.2).2⟩
            have := hB.empty c' y hy'
            rw [hbc] at this
            simp at this
          · rw [upd_ne _ _ hc]
        · intro d' c' y hy
          by_cases hc : c' = c
          · subst hc
            simp only [upd_same]; rw [hu4, hp4]
          · simp only [upd_ne _ _ hc]
        · intro c'
          by_cases hc : c = c'
          · subst hc
            simp [accepted, delivered, hbc, upd_same]
          · simp [accepted, delivered, hc, upd_ne _ _ (Ne.symm hc)]
        · intro c'
          by_cases hc : c = c'
          · subst hc
            refine Or.inr ⟨l.arr, by simp [acceptedAt], Nat.lt_succ_of_lt (hS.entry _ _ _ hmem).2.2, fun x hx => hL.arrLive c x hx l hLI, ?_⟩
            rintro y ⟨hy1, hy2⟩
            obtain ⟨hy2, hy3⟩ := not_live_woken hy2
            exact harr y ((updq_sublist (rest_sublist hq) _ _).subset hy1) hy3 hy2
          · exact Or.inl (by simp [acceptedAt, hc])
        · intro co'
          simp only
          by_cases h1 : co' = l.co
          · subst h1
            rw [hwt, upd_same]
            simp [inFlight, deliveredTo, returned, hne.symm]
          · rw [upd_ne _ _ h1]
            have hif : co = co' → inFlight (w.cos co') = [] := by rintro rfl; rw [hr]; rfl
            by_cases h2 : co = co'
            · simp [deliveredTo, returned, h2, hr1, hif h2]
            · simp [deliveredTo, returned, h2]
        · intro co'
          simp only
          by_cases h1 : co' = l.co
          · subst h1
            rw [hwt, upd_same]
            simp [inFlightSend, acceptedFrom, sentOk, hne.symm]
          · rw [upd_ne _ _ h1]
            simp [acceptedFrom, sentOk, Ne.symm h1, hr2]
        · intro c' hc'
          have : c' ≠ c := by rintro rfl; rw [hcl] at hc'; simp at hc'
          simp only [upd_ne _ _ this]; exact hc'
        · intro co' wt' r' h
          simp only at h
          by_cases h1 : co' = l.co
          · subst h1
            rw [upd_same] at h
            injection h with h h'
            injection h' with h'
            subst h h'
            exact Or.inr (CommOk_wake hS hmem hwt (x := v) (by rw [lastComm_append]; simp [lastComm, commOf, hne.symm]) (Or.inl ⟨rfl, hv, rfl⟩))
          · rw [upd_ne _ _ h1] at h
            have h2 : co ≠ co' := by rintro rfl; rw [hr] at h; simp at h
            exact Or.inl ⟨h, by simp [lastComm, commOf, h2, Ne.symm h1]⟩
      · intro c' hc'
        have : c ≠ c' := by rintro rfl; rw [hcl] at hc'; simp at hc'
        refine ⟨by simp only [upd_ne _ _ (Ne.symm this)]; exact hc', ?_⟩
        simp [accepted, this]
      · simp only
        rw [upd_ne _ _ hne.symm]; exact hr

/-- Putting a value into the buffer. -/
theorem push_inv {decl : Nat → Nat} {w : World V} {bufs : Nat → List V} {evs : List (Ev V)} (h : Inv decl w bufs evs) {co : Nat} {c : Nat}
    (hrun : w.cos co = .running) (hcl : (w.chans c).closed = false) (hno : ∀ l, ¬ LiveIn w .recv c l) (hf : bufFull (w.chans c) = false)
    (v : V) (r : Ret V) (hr1 : r.value = none) (hr2 : r.isSent = true) :
    ∃ ch, bufPush (w.chans c) v = .ok ch ∧
      Inv decl { w with chans := upd w.chans c ch, clock := w.clock + 1 } (upd bufs c (bufs c ++ [v])) (evs ++ [.sent c co v w.clock, .ret co r]) ∧
      ClosedOk w { w with chans := upd w.chans c ch, clock := w.clock + 1 } [.sent c co v w.clock, .ret co r] := by
  obtain ⟨hS, hB, hL⟩ := h
  obtain ⟨ch, hu1, hu2, hu3, hu4⟩ := ring_push (hB.ring c) hf v
  refine ⟨ch, hu1, ⟨S_chans hS _ _ (Nat.le_succ _), step_frame hB hL (Nat.le_succ _) ?_ (fun _ _ => .refl _) (fun _ h => h) ?_ ?_ ?_ ?_ ?_ ?_ ?_ ?_ ?_⟩, ?_⟩
  · intro c'
    by_cases hc : c' = c
    · subst hc
      simp only [upd_same]
      exact ⟨hu2, hu3⟩
    · simp only [upd_ne _ _ hc]
      exact ⟨hB.ring c', trivial⟩
  · intro c' y hy
    by_cases hc : c' = c
    · subst hc
      have := hB.full c' y hy
      rw [← hB.len, ← ring_full (hB.ring c'), hf] at this
      simp at this
    · rw [upd_ne _ _ hc]
  · intro c' y hy
    by_cases hc : c' = c
    · subst hc
      exact absurd hy (hno y)
    · rw [upd_ne _ _ hc]
  · intro d' c' y hy
    by_cases hc : c' = c
    · subst hc
      simp only [upd_same]; exact hu4
    · simp only [upd_ne _ _ hc]
  · intro c'
    by_cases hc : c = c'
    · subst hc
      simp [accepted, delivered, upd_same]
    · simp [accepted, delivered, hc, upd_ne _ _ (Ne.symm hc)]
  · intro c'
    by_cases hc : c = c'
    · subst hc
      refine Or.inr ⟨w.clock, by simp [acceptedAt], Nat.lt_succ_self _, hL.arrLt c, ?_⟩
      intro y hy
      have := hB.full c y hy
      rw [← hB.len, ← ring_full (hB.ring c), hf] at this
      simp at this
    · exact Or.inl (by simp [acceptedAt, hc])
  · intro co'
    by_cases h2 : co = co'
    · subst h2
      simp [deliveredTo, returned, hr1]
    · simp [deliveredTo, returned, h2]
  · intro co'
    by_cases h2 : co = co'
    · subst h2
      simp [acceptedFrom, sentOk, hr2]
      omega
    · simp [acceptedFrom, sentOk, h2]
  · intro c' hc'
    have : c' ≠ c := by rintro rfl; rw [hcl] at hc'; simp at hc'
    simp only [upd_ne _ _ this]; exact hc'
  · intro co' wt' r' h
    have h2 : co ≠ co' := by rintro rfl; simp only at h; rw [hrun] at h; simp at h
    exact Or.inl ⟨h, by simp [lastComm, commOf, h2]⟩
  · intro c' hc'
    have : c ≠ c' := by rintro rfl; rw [hcl] at hc'; simp at hc'
    refine ⟨by simp only [upd_ne _ _ (Ne.symm this)]; exact hc', ?_⟩
    simp [accepted, this]

/-- Taking a value from the buffer. -/
theorem pop_inv {decl : Nat → Nat} {w : World V} {bufs : Nat → List V} {evs : List (Ev V)} (h : Inv decl w bufs evs) {co : Nat} {c : Nat}
    (hrun : w.cos co = .running) (hno : ∀ l, ¬ LiveIn w .send c l) {x : V} {xs : List V} (hbc : bufs c = x :: xs)
    (r : Ret V) (hr1 : r.value = some x) (hr2 : r.isSent = false) :
    ∃ ch, bufPop (w.chans c) = .ok (x, ch) ∧
      Inv decl { w with chans := upd w.chans c ch, clock := w.clock + 1 } (upd bufs c xs) (evs ++ [.rcvd c co x, .ret co r]) ∧
      ClosedOk w { w with chans := upd w.chans c ch, clock := w.clock + 1 } [.rcvd c co x, .ret co r] := by
  obtain ⟨hS, hB, hL⟩ := h
  have hring := hB.ring c
  rw [hbc] at hring
  obtain ⟨ch, hu1, hu2, hu3, hu4⟩ := ring_pop hring
  refine ⟨ch, hu1, ⟨S_chans hS _ _ (Nat.le_succ _), step_frame hB hL (Nat.le_succ _) ?_ (fun _ _ => .refl _) (fun _ h => h) ?_ ?_ ?_ ?_ ?_ ?_ ?_ ?_ ?_⟩, ?_⟩
  · intro c'
    by_cases hc : c' = c
    · subst hc
      simp only [upd_same]
      exact ⟨hu2, hu3⟩
    · simp only [upd_ne _ _ hc]
      exact ⟨hB.ring c', trivial⟩
  · intro c' y hy
    by_cases hc : c' = c
    · subst hc
      exact absurd hy (hno y)
    · rw [upd_ne _ _ hc]
  · intro c' y hy
    by_cases hc : c' = c
    · subst hc
      have := hB.empty c' y hy
      rw [hbc] at this
      simp at this
    · rw [upd_ne _ _ hc]
  · intro d' c' y hy
    by_cases hc : c' = c
    · subst hc
      simp only [upd_same]; exact hu4
    · simp only [upd_ne _ _ hc]
  · intro c'
    by_cases hc : c = c'
    · subst hc
      simp [accepted, delivered, upd_same, hbc]
    · simp [accepted, delivered, hc, upd_ne _ _ (Ne.symm hc)]
  · intro c'
    exact Or.inl (by simp [acceptedAt])
  · intro co'
    by_cases h2 : co = co'
    · subst h2
      rw [hrun]
      simp [deliveredTo, returned, hr1, inFlight, hrun]
    · simp [deliveredTo, returned, h2]
  · intro co'
    simp [acceptedFrom, sentOk, hr2]
  · intro c' hc'
    by_cases hc : c' = c
    · subst hc
      simp only [upd_same]; rw [hu4]; exact hc'
    · simp only [upd_ne _ _ hc]; exact hc'
  · intro co' wt' r' h
    have h2 : co ≠ co' := by rintro rfl; simp only at h; rw [hrun] at h; simp at h
    exact Or.inl ⟨h, by simp [lastComm, commOf, h2]⟩
  · intro c' hc'
    refine ⟨?_, by simp [accepted]⟩
    by_cases hc : c' = c
    · subst hc
      simp only [upd_same]; rw [hu4]; exact hc'
    · simp only [upd_ne _ _ hc]; exact hc'

/-- Returning without having moved a value; only flags of channels change. -/
theorem ret_inv {decl : Nat → Nat} {w : World V} {bufs : Nat → List V} {evs : List (Ev V)} (h : Inv decl w bufs evs) {co : Nat}
    (chans : Nat → Chan V) (hch : ∀ c, (chans c).buf = (w.chans c).buf ∧ (chans c).cap = (w.chans c).cap ∧ (chans c).front = (w.chans c).front ∧
      (chans c).rear = (w.chans c).rear ∧ (chans c).closed = (w.chans c).closed ∧
      ((chans c).successful = true → (w.chans c).successful = true))
    (r : Ret V) (hr1 : r.value = none) (hr2 : r.isSent = false) :
    Inv decl { w with chans := chans, clock := w.clock + 1 } bufs (evs ++ [.ret co r]) ∧
      ClosedOk w { w with chans := chans, clock := w.clock + 1 } [.ret co r] := by
  obtain ⟨hS, hB, hL⟩ := h
  refine ⟨⟨S_chans hS _ _ (Nat.le_succ _), step_frame hB hL (Nat.le_succ _) ?_ (fun _ _ => .refl _) (fun _ h => h) (fun _ _ _ => rfl) (fun _ _ _ => rfl)
    (fun _ c _ _ => (hch c).2.2.2.2.1) ?_ ?_ ?_ ?_ ?_ ?_⟩, ?_⟩
  · intro c
    obtain ⟨h1, h2, h3, h4, h5, h6⟩ := hch c
    refine ⟨?_, by simp only [h1]⟩
    have := hB.ring c
    unfold RingOk at this ⊢
    simp only [h1, h2, h3, h4]
    refine ⟨?_, this.2⟩
    cases hh : (chans c).successful with
    | false => rfl
    | true => rw [this.1] at h6; simpa using h6 hh
  · intro c; simp [accepted, delivered]
  · intro c; exact Or.inl (by simp [acceptedAt])
  · intro co'
    by_cases h2 : co = co'
    · subst h2; simp [deliveredTo, returned, hr1]
    · simp [deliveredTo, returned, h2]
  · intro co'
    simp [acceptedFrom, sentOk, hr2]
  · intro c hc
    simp only; rw [(hch c).2.2.2.2.1]; exact hc
  · intro co' wt' r' h
    exact Or.inl ⟨h, by simp [lastComm, commOf]⟩
  · intro c hc
    exact ⟨by simp only; rw [(hch c).2.2.2.2.1]; exact hc, by simp [accepted]⟩

theorem blocked_iff {w : World V} (hS : S w) (co : Nat) (d : Dir) (c : Nat) : Blocked w co d c ↔ ∃ l, LiveIn w d c l ∧ l.co = co := by
  constructor
  · rintro (h | ⟨cases, h, cs, hcs, rfl, rfl⟩)
    · obtain ⟨l, h1, h2⟩ := hS.waitOp co d c h
      exact ⟨l, ⟨h1, _, h2 ▸ h⟩, h2⟩
    · obtain ⟨i, hi⟩ := List.getElem?_of_mem hcs
      obtain ⟨l, h1, h2, h3⟩ := hS.waitSel co cases h i cs hi
      exact ⟨l, ⟨h1, _, h2 ▸ h⟩, h2⟩
  · rintro ⟨l, ⟨h1, wt, h2⟩, rfl⟩
    rcases (hS.entry d c l h1).1 with ⟨_, _, h, _⟩ | ⟨_, cases, r, cs, h3, h4, h5, h6, _⟩
    · exact Or.inl h
    · rw [h3] at h2
      injection h2 with _ h2
      subst h2
      exact Or.inr ⟨cases, h3, cs, List.mem_of_getElem? h4, h5, h6⟩

theorem not_liveIn {w : World V} {d : Dir} {c : Nat} (hdead : ∀ l ∈ w.q d c, ¬ Live w l) (l : Lnk V) : ¬ LiveIn w d c l := fun h => hdead l h.1 h.2

/-- A blocked case. -/
def NotReady (decl : Nat → Nat) (w : World V) (bufs : Nat → List V) (cs : Case V) : Prop :=
  match cs with
  | .send c _ => (bufs c).length = decl c ∧ (∀ x, ¬ LiveIn w .recv c x) ∧ (w.chans c).closed = false
  | .recv c _ => bufs c = [] ∧ (∀ x, ¬ LiveIn w .send c x) ∧ (w.chans c).closed = false

theorem NotReady_pruned {decl : Nat → Nat} {w w' : World V} {bufs : Nat → List V} (h : Pruned w w') (cs : Case V) :
    NotReady decl w' bufs cs ↔ NotReady decl w bufs cs := by
  cases cs <;> simp only [NotReady, h.liveIn, h.1]

theorem ClosedOk_pruned {w w1 w' : World V} (h : Pruned w w1) {es : List (Ev V)} (hc : ClosedOk w1 w' es) : ClosedOk w w' es := by
  intro c hcl
  rw [← h.1] at hcl
  exact hc c hcl

theorem full_iff {decl : Nat → Nat} {w : World V} {bufs : Nat → List V} (hB : B decl w bufs) (c : Nat) :
    bufFull (w.chans c) = true ↔ (bufs c).length = decl c := by
  rw [ring_full (hB.ring c), hB.len]

/-- What pass 1 of `select` does. -/
theorem pass1_inv {decl : Nat → Nat} {co : Nat} {bufs : Nat → List V} {evs : List (Ev V)} (cases : List (Case V)) :
    ∀ (w : World V) (i : Nat), Inv decl w bufs evs → w.cos co = .running → (∀ cs ∈ cases, cs.bound = true) →
    (∃ w', pass1 co w cases i = .ok (.inl w') ∧ Pruned w w' ∧ Inv decl w' bufs evs ∧ ∀ cs ∈ cases, NotReady decl w bufs cs) ∨
    (∃ w' es bufs', pass1 co w cases i = .ok (.inr (w', es)) ∧ Inv decl w' bufs' (evs ++ es) ∧ ClosedOk w w' es ∧ w'.cos co = .running ∧
      ∃ k cs, cases[k]? = some cs ∧ ¬ NotReady decl w bufs cs ∧ (∀ j, j < k → ∀ cs', cases[j]? = some cs' → NotReady decl w bufs cs') ∧
        ∃ ok m, es.getLast? = some (.ret co (.picked (i + k) ok m)) ∧ (ok = false → m = none ∧ (w.chans cs.ch).closed = true) ∧
          (ok = true → (m.isSome = true ↔ cs.dir = .recv))) := by
  induction cases with
  | nil => intro w i h _ _; exact Or.inl ⟨w, rfl, Pruned.refl w, h, by simp⟩
  | cons cs cases ih =>
    intro w i hI hrun hbound
    have hcont : ∀ w1, Pruned w w1 → Inv decl w1 bufs evs → NotReady decl w bufs cs → 
        (∃ w', pass1 co w1 cases (i + 1) = .ok (.inl w') ∧ Pruned w w' ∧ Inv decl w' bufs evs ∧ ∀ x ∈ cs :: cases, NotReady decl w bufs x) ∨
        (∃ w' es bufs', pass1 co w1 cases (i + 1) = .ok (.inr (w', es)) ∧ Inv decl w' bufs' (evs ++ es) ∧ ClosedOk w w' es ∧ w'.cos co = .running ∧
          ∃ k x, (cs :: cases)[k]? = some x ∧ ¬ NotReady decl w bufs x ∧ (∀ j, j < k → ∀ cs', (cs :: cases)[j]? = some cs' → NotReady decl w bufs cs') ∧
            ∃ ok m, es.getLast? = some (.ret co (.picked (i + k) ok m)) ∧ (ok = false → m = none ∧ (w.chans x.ch).closed = true) ∧
              (ok = true → (m.isSome = true ↔ x.dir = .recv))) := by
      intro w1 hp hI1 hnr
      rcases ih w1 (i + 1) hI1 (by rw [hp.2.1]; exact hrun) (fun x hx => hbound x (List.mem_cons_of_mem _ hx)) with
        ⟨w', h1, h2, h3, h4⟩ | ⟨w', es, bufs', h1, h2, h3, h4, k, x, h5, h6, h7, ok, m, h8, h9, h10⟩
      · refine Or.inl ⟨w', h1, hp.trans h2, h3, ?_⟩
        intro x hx
        rcases List.mem_cons.1 hx with rfl | hx
        · exact hnr
        · exact (NotReady_pruned hp x).1 (h4 x hx)
      · refine Or.inr ⟨w', es, bufs', h1, h2, ClosedOk_pruned hp h3, h4, k + 1, x, h5, fun h => h6 ((NotReady_pruned hp x).2 h), ?_, ok, m, ?_, ?_, h10⟩
        · intro j hj cs' hcs'
          cases j with
          | zero => rw [← Option.some.inj hcs']; exact hnr
          | succ j => exact (NotReady_pruned hp _).1 (h7 j (by omega) cs' hcs')
        · rw [h8, show i + 1 + k = i + (k + 1) by omega]
        · intro hok
          rw [← hp.1]; exact h9 hok
    have h0 : ∀ j, j < 0 → ∀ cs', (cs :: cases)[j]? = some cs' → NotReady decl w bufs cs' := by intro j hj; omega
    cases cs with
    | recv c bound =>
      have hbd : bound = true := hbound _ List.mem_cons_self
      subst hbd
      rw [pass1]
      rcases popq_spec hI.1 .send c with ⟨hp, hdead⟩ | ⟨pre, l, rest, hq, hp, hpre, hlive⟩
      · rw [hp]
        obtain ⟨hI1, hP⟩ := prune_inv hI hdead
        simp only
        have hno : ∀ l, ¬ LiveIn { w with q := updq w.q .send c [], done := w.done } .send c l := fun l h => not_liveIn hdead l ((hP.liveIn _ _ _).1 h)
        cases hbc : bufs c with
        | nil =>
          have hemp : bufEmpty (w.chans c) = true := (ring_empty (hI.2.1.ring c)).2 hbc
          rw [if_neg (by simp [hemp])]
          rcases Bool.eq_false_or_eq_true (w.chans c).closed with hcl | hcl
          · rw [if_pos hcl]
            obtain ⟨h1, h2⟩ := ret_inv (co := co) hI1 (upd w.chans c { w.chans c with successful := false }) (by
              intro c'
              by_cases hc : c' = c
              · subst hc; simp [upd_same]
              · simp [upd_ne _ _ hc]) (.picked i false none) rfl rfl
            refine Or.inr ⟨_, _, bufs, rfl, h1, ClosedOk_pruned hP h2, hrun, 0, _, rfl, ?_, h0, false, none, rfl, fun _ => ⟨rfl, hcl⟩, by simp⟩
            rintro ⟨_, _, h⟩; rw [hcl] at h; simp at h
          · rw [if_neg (by simp [hcl])]
            exact hcont _ hP hI1 ⟨hbc, not_liveIn hdead, hcl⟩
        | cons x xs =>
          have hemp : bufEmpty (w.chans c) = false := by
            cases hh : bufEmpty (w.chans c) with
            | false => rfl
            | true => rw [ring_empty (hI.2.1.ring c), hbc] at hh; simp at hh
          rw [if_pos hemp]
          obtain ⟨ch, h1, h2, h3⟩ := pop_inv (co := co) hI1 hrun hno hbc (.picked i true (some x)) rfl rfl
          rw [h1, Res.bind_ok]
          simp only [if_pos]
          refine Or.inr ⟨_, _, _, rfl, h2, ClosedOk_pruned hP h3, hrun, 0, _, rfl, ?_, h0, true, some x, rfl, by simp, by simp [Case.dir]⟩
          rintro ⟨h, _⟩; rw [hbc] at h; simp at h
      · rw [hp]
        simp only
        obtain ⟨w', es, bufs', v, h1, h2, h3, ⟨x, h4, h5⟩, h6⟩ := rtRecv_inv hI hrun hq hpre hlive (fun v => .picked i true (some v)) (fun _ => rfl) (fun _ => rfl)
        rw [h1, Res.bind_ok]
        refine Or.inr ⟨w', es, bufs', rfl, h2, h3, h6, 0, _, rfl, ?_, h0, true, some v, ?_, by simp, by simp [Case.dir]⟩
        · rintro ⟨_, h, _⟩
          exact h l ⟨by rw [hq]; simp, hlive⟩
        · rcases h5 with h5 | h5 <;> rw [h5] <;> rfl
    | send c v =>
      rw [pass1]
      cases hcl : (w.chans c).closed with
      | true =>
        rw [if_pos rfl]
        obtain ⟨h1, h2⟩ := ret_inv (co := co) hI (upd w.chans c { w.chans c with successful := false }) (by
          intro c'
          by_cases hc : c' = c
          · subst hc; simp [upd_same]
          · simp [upd_ne _ _ hc]) (.picked i false none) rfl rfl
        refine Or.inr ⟨_, _, bufs, rfl, h1, h2, hrun, 0, _, rfl, ?_, h0, false, none, rfl, fun _ => ⟨rfl, hcl⟩, by simp⟩
        rintro ⟨_, _, h⟩; rw [hcl] at h; simp at h
      | false =>
        rw [if_neg (by simp)]
        rcases popq_spec hI.1 .recv c with ⟨hp, hdead⟩ | ⟨pre, l, rest, hq, hp, hpre, hlive⟩
        · rw [hp]
          obtain ⟨hI1, hP⟩ := prune_inv hI hdead
          simp only
          have hno : ∀ l, ¬ LiveIn { w with q := updq w.q .recv c [], done := w.done } .recv c l := fun l h => not_liveIn hdead l ((hP.liveIn _ _ _).1 h)
          cases hfl : bufFull (w.chans c) with
          | true =>
            rw [if_neg (by simp)]
            exact hcont _ hP hI1 ⟨(full_iff hI.2.1 c).1 hfl, not_liveIn hdead, hcl⟩
          | false =>
            rw [if_pos rfl]
            obtain ⟨ch, h1, h2, h3⟩ := push_inv (co := co) hI1 hrun hcl hno hfl v (.picked i true none) rfl rfl
            rw [h1, Res.bind_ok]
            refine Or.inr ⟨_, _, _, rfl, h2, ClosedOk_pruned hP h3, hrun, 0, _, rfl, ?_, h0, true, none, rfl, by simp, by simp [Case.dir]⟩
            rintro ⟨h, _⟩; rw [← full_iff hI.2.1 c, hfl] at h; simp at h
        · rw [hp]
          simp only
          obtain ⟨w', es, h1, h2, h3, h4, h5⟩ := rtSend_inv hI hrun hq hpre hlive v (.picked i true none) rfl rfl
          rw [h1, Res.bind_ok]
          refine Or.inr ⟨w', es, bufs, rfl, h2, h3, h5, 0, _, rfl, ?_, h0, true, none, by rw [h4]; rfl, by simp, by simp [Case.dir]⟩
          rintro ⟨_, h, _⟩
          exact h l ⟨by rw [hq]; simp, hlive⟩

theorem send_inv {decl : Nat → Nat} {w : World V} {bufs : Nat → List V} {evs : List (Ev V)} (hI : Inv decl w bufs evs) {co : Nat}
    (hrun : w.cos co = .running) (c : Nat) (v : V) (try_ : Bool) :
    ∃ w' es bufs', send w co c v try_ = .ok (w', es) ∧ Inv decl w' bufs' (evs ++ es) ∧ ClosedOk w w' es ∧
      (((w.chans c).closed = true ∧ es = [.ret co (.sendClosed c)] ∧ bufs' = bufs) ∨
       (¬ NotReady decl w bufs (.send c v) ∧ (w.chans c).closed = false ∧ es.getLast? = some (.ret co (.sendOk c)) ∧ es.head? = some (.sent c co v w.clock)) ∨
       (NotReady decl w bufs (.send c v) ∧ try_ = true ∧ es = [.ret co (.sendFull c)] ∧ bufs' = bufs) ∨
       (NotReady decl w bufs (.send c v) ∧ try_ = false ∧ es = [] ∧ w'.cos co = .waiting (.op .send c) none ∧ bufs' = bufs)) := by
  unfold send
  have hsame : ∀ c', (w.chans c').buf = (w.chans c').buf ∧ (w.chans c').cap = (w.chans c').cap ∧ (w.chans c').front = (w.chans c').front ∧
    (w.chans c').rear = (w.chans c').rear ∧ (w.chans c').closed = (w.chans c').closed ∧
    ((w.chans c').successful = true → (w.chans c').successful = true) := fun _ => ⟨rfl, rfl, rfl, rfl, rfl, id⟩
  rcases Bool.eq_false_or_eq_true (w.chans c).closed with hcl | hcl
  · rw [if_pos hcl]
    obtain ⟨h1, h2⟩ := ret_inv (co := co) hI w.chans hsame (.sendClosed c) rfl rfl
    exact ⟨_, _, bufs, rfl, h1, h2, Or.inl ⟨hcl, rfl, rfl⟩⟩
  · rw [if_neg (by simp [hcl])]
    rcases popq_spec hI.1 .recv c with ⟨hp, hdead⟩ | ⟨pre, l, rest, hq, hp, hpre, hlive⟩
    · rw [hp]
      obtain ⟨hI1, hP⟩ := prune_inv hI hdead
      simp only
      have hno : ∀ l, ¬ LiveIn { w with q := updq w.q .recv c [], done := w.done } .recv c l := fun l h => not_liveIn hdead l ((hP.liveIn _ _ _).1 h)
      rcases Bool.eq_false_or_eq_true (bufFull (w.chans c)) with hfl | hfl
      · rw [if_neg (by simp [hfl])]
        have hfl' := (full_iff hI.2.1 c).1 hfl
        have hnr : NotReady decl w bufs (.send c v) := ⟨hfl', not_liveIn hdead, hcl⟩
        cases try_ with
        | true =>
          rw [if_pos rfl]
          obtain ⟨h1, h2⟩ := ret_inv (co := co) hI1 w.chans hsame (.sendFull c) rfl rfl
          exact ⟨_, _, bufs, rfl, h1, ClosedOk_pruned hP h2, Or.inr (Or.inr (Or.inl ⟨hnr, rfl, rfl, rfl⟩))⟩
        | false =>
          rw [if_neg (by simp)]
          let nw : Dir → Nat → List (Lnk V) := fun d' c' => if d' = .send ∧ c' = c then [⟨co, false, 0, some v, true, w.clock⟩] else []
          have hnw : ∀ d' c' l, l ∈ nw d' c' → d' = .send ∧ c' = c ∧ l = ⟨co, false, 0, some v, true, w.clock⟩ := by
            intro d' c' l h
            simp only [nw] at h
            split at h
            · rename_i he; exact ⟨he.1, he.2, List.mem_singleton.1 h⟩
            · simp at h
          have heq : (updq (updq w.q .recv c []) .send c (updq w.q .recv c [] .send c ++ [⟨co, false, 0, some v, true, w.clock⟩])) =
              fun d' c' => updq w.q .recv c [] d' c' ++ nw d' c' := by
            funext d' c'
            by_cases he : d' = .send ∧ c' = c
            · obtain ⟨rfl, rfl⟩ := he
              simp only [nw]
              rw [updq_same, if_pos ⟨trivial, trivial⟩]
            · simp only [nw]
              rw [updq_ne _ _ he, if_neg he, List.append_nil]
          rw [heq]
          refine ⟨_, _, bufs, rfl, ?_, ?_, Or.inr (Or.inr (Or.inr ⟨hnr, rfl, rfl, by simp only [upd_same], rfl⟩))⟩
          · rw [List.append_nil]
            refine ⟨S_park hI1.1 hrun (.op .send c) nw ?_ ?_ ?_ ?_ ?_, park_frame hI1.1 hI1.2.1 hI1.2.2 hrun (.op .send c) nw ?_ ?_ ?_⟩
            · intro d' c' l h
              obtain ⟨rfl, rfl, rfl⟩ := hnw d' c' l h
              exact ⟨rfl, rfl, fun _ => rfl⟩
            · intro d' c' l h
              obtain ⟨rfl, rfl, rfl⟩ := hnw d' c' l h
              exact Or.inl ⟨rfl, rfl, rfl, rfl⟩
            · intro d' c'
              simp only [nw]
              split <;> simp
            · intro d' c' h
              injection h with h1 h2
              subst h1 h2
              exact ⟨_, by simp only [nw, and_self, if_pos]; exact List.mem_singleton.2 rfl⟩
            · intro cases h; simp at h
            · intro d' c' l h
              obtain ⟨rfl, rfl, rfl⟩ := hnw d' c' l h
              exact ⟨rfl, rfl, rfl⟩
            · intro c' l h
              obtain ⟨_, rfl, _⟩ := hnw _ c' l h
              exact ⟨hfl', hno, hcl⟩
            · intro c' l h
              obtain ⟨h, _⟩ := hnw _ c' l h
              simp at h
          · intro c' hc'
            exact ⟨hc', by simp [accepted]⟩
      · rw [if_pos hfl]
        obtain ⟨ch, h1, h2, h3⟩ := push_inv (co := co) hI1 hrun hcl hno hfl v (.sendOk c) rfl rfl
        rw [h1, Res.bind_ok]
        refine ⟨_, _, _, rfl, h2, ClosedOk_pruned hP h3, Or.inr (Or.inl ⟨?_, hcl, rfl, rfl⟩)⟩
        rintro ⟨h, _⟩; rw [← full_iff hI.2.1 c, hfl] at h; simp at h
    · rw [hp]
      simp only
      obtain ⟨w', es, h1, h2, h3, h4, h5⟩ := rtSend_inv hI hrun hq hpre hlive v (.sendOk c) rfl rfl
      refine ⟨w', es, bufs, h1, h2, h3, Or.inr (Or.inl ⟨?_, hcl, by rw [h4]; rfl, by rw [h4]; rfl⟩)⟩
      rintro ⟨_, h, _⟩
      exact h l ⟨by rw [hq]; simp, hlive⟩

theorem recv_inv {decl : Nat → Nat} {w : World V} {bufs : Nat → List V} {evs : List (Ev V)} (hI : Inv decl w bufs evs) {co : Nat}
    (hrun : w.cos co = .running) (c : Nat) (try_ : Bool) :
    ∃ w' es bufs', recv w co c try_ = .ok (w', es) ∧ Inv decl w' bufs' (evs ++ es) ∧ ClosedOk w w' es ∧
      ((∃ v, es.getLast? = some (.ret co (.recvOk c v)) ∧ delivered c es = [v] ∧ (∀ x xs, bufs c = x :: xs → v = x) ∧
          (bufs c = [] → ¬ ∀ x, ¬ LiveIn w .send c x)) ∨
       (bufs c = [] ∧ (∀ x, ¬ LiveIn w .send c x) ∧ try_ = true ∧ es = [.ret co (.recvNone c)] ∧ bufs' = bufs) ∨
       (bufs c = [] ∧ (w.chans c).closed = true ∧ try_ = false ∧ es = [.ret co (.recvClosed c)] ∧ bufs' = bufs) ∨
       (NotReady decl w bufs (.recv c true) ∧ try_ = false ∧ es = [] ∧ w'.cos co = .waiting (.op .recv c) none ∧ bufs' = bufs)) := by
  unfold recv
  have hsame : ∀ c', (w.chans c').buf = (w.chans c').buf ∧ (w.chans c').cap = (w.chans c').cap ∧ (w.chans c').front = (w.chans c').front ∧
    (w.chans c').rear = (w.chans c').rear ∧ (w.chans c').closed = (w.chans c').closed ∧
    ((w.chans c').successful = true → (w.chans c').successful = true) := fun _ => ⟨rfl, rfl, rfl, rfl, rfl, id⟩
  rcases popq_spec hI.1 .send c with ⟨hp, hdead⟩ | ⟨pre, l, rest, hq, hp, hpre, hlive⟩
  · rw [hp]
    obtain ⟨hI1, hP⟩ := prune_inv hI hdead
    simp only
    have hno : ∀ l, ¬ LiveIn { w with q := updq w.q .send c [], done := w.done } .send c l := fun l h => not_liveIn hdead l ((hP.liveIn _ _ _).1 h)
    cases hbc : bufs c with
    | cons x xs =>
      have hemp : bufEmpty (w.chans c) = false := by
        cases hh : bufEmpty (w.chans c) with
        | false => rfl
        | true => rw [ring_empty (hI.2.1.ring c), hbc] at hh; simp at hh
      rw [if_pos hemp, updq_same, if_neg (by simp)]
      obtain ⟨ch, h1, h2, h3⟩ := pop_inv (co := co) hI1 hrun hno hbc (.recvOk c x) rfl rfl
      rw [h1, Res.bind_ok]
      refine ⟨_, _, _, rfl, h2, ClosedOk_pruned hP h3, Or.inl ⟨x, rfl, by simp [delivered], ?_, by simp⟩⟩
      intro y ys h; simp at h; exact h.1
    | nil =>
      have hemp : bufEmpty (w.chans c) = true := (ring_empty (hI.2.1.ring c)).2 hbc
      rw [if_neg (by simp [hemp])]
      cases try_ with
      | true =>
        rw [if_pos rfl]
        obtain ⟨h1, h2⟩ := ret_inv (co := co) hI1 w.chans hsame (.recvNone c) rfl rfl
        exact ⟨_, _, bufs, rfl, h1, ClosedOk_pruned hP h2, Or.inr (Or.inl ⟨rfl, not_liveIn hdead, rfl, rfl, rfl⟩)⟩
      | false =>
        rw [if_neg (by simp)]
        rcases Bool.eq_false_or_eq_true (w.chans c).closed with hcl | hcl
        · rw [if_pos hcl]
          obtain ⟨h1, h2⟩ := ret_inv (co := co) hI1 w.chans hsame (.recvClosed c) rfl rfl
          exact ⟨_, _, bufs, rfl, h1, ClosedOk_pruned hP h2, Or.inr (Or.inr (Or.inl ⟨rfl, hcl, rfl, rfl, rfl⟩))⟩
        · rw [if_neg (by simp [hcl])]
          have hnr : NotReady decl w bufs (.recv c true) := ⟨hbc, not_liveIn hdead, hcl⟩
          let nw : Dir → Nat → List (Lnk V) := fun d' c' => if d' = .recv ∧ c' = c then [⟨co, false, 0, none, true, w.clock⟩] else []
          have hnw : ∀ d' c' l, l ∈ nw d' c' → d' = .recv ∧ c' = c ∧ l = ⟨co, false, 0, none, true, w.clock⟩ := by
            intro d' c' l h
            simp only [nw] at h
            split at h
            · rename_i he; exact ⟨he.1, he.2, List.mem_singleton.1 h⟩
            · simp at h
          have heq : (updq (updq w.q .send c []) .recv c (updq w.q .send c [] .recv c ++ [⟨co, false, 0, none, true, w.clock⟩])) =
              fun d' c' => updq w.q .send c [] d' c' ++ nw d' c' := by
            funext d' c'
            by_cases he : d' = .recv ∧ c' = c
            · obtain ⟨rfl, rfl⟩ := he
              simp only [nw]
              rw [updq_same, if_pos ⟨trivial, trivial⟩]
            · simp only [nw]
              rw [updq_ne _ _ he, if_neg he, List.append_nil]
          rw [heq]
          refine ⟨_, _, bufs, rfl, ?_, ?_, Or.inr (Or.inr (Or.inr ⟨hnr, rfl, rfl, by simp only [upd_same], rfl⟩))⟩
          · rw [List.append_nil]
            refine ⟨S_park hI1.1 hrun (.op .recv c) nw ?_ ?_ ?_ ?_ ?_, park_frame hI1.1 hI1.2.1 hI1.2.2 hrun (.op .recv c) nw ?_ ?_ ?_⟩
            · intro d' c' l h
              obtain ⟨rfl, rfl, rfl⟩ := hnw d' c' l h
              exact ⟨rfl, rfl, fun h => by simp at h⟩
            · intro d' c' l h
              obtain ⟨rfl, rfl, rfl⟩ := hnw d' c' l h
              exact Or.inl ⟨rfl, rfl, rfl, rfl⟩
            · intro d' c'
              simp only [nw]
              split <;> simp
            · intro d' c' h
              injection h with h1 h2
              subst h1 h2
              exact ⟨_, by simp only [nw, and_self, if_pos]; exact List.mem_singleton.2 rfl⟩
            · intro cases h; simp at h
            · intro d' c' l h
              obtain ⟨rfl, rfl, rfl⟩ := hnw d' c' l h
              exact ⟨rfl, rfl, rfl⟩
            · intro c' l h
              obtain ⟨h, _⟩ := hnw _ c' l h
              simp at h
            · intro c' l h
              obtain ⟨_, rfl, _⟩ := hnw _ c' l h
              exact ⟨hbc, hno, hcl⟩
          · intro c' hc'
            exact ⟨hc', by simp [accepted]⟩
  · rw [hp]
    simp only
    obtain ⟨w', es, bufs', v, h1, h2, h3, ⟨x, h4, h5⟩, h6⟩ := rtRecv_inv hI hrun hq hpre hlive (fun v => .recvOk c v) (fun _ => rfl) (fun _ => rfl)
    refine ⟨w', es, bufs', h1, h2, h3, Or.inl ⟨v, ?_, ?_, ?_, ?_⟩⟩
    · rcases h5 with h5 | h5 <;> rw [h5] <;> rfl
    · rcases h5 with h5 | h5 <;> rw [h5] <;> simp [delivered]
    · intro y ys h
      rw [h] at h4
      simp at h4
      exact h4.1.symm
    · intro _ h
      exact h l ⟨by rw [hq]; simp, hlive⟩

theorem select_inv {decl : Nat → Nat} {w : World V} {bufs : Nat → List V} {evs : List (Ev V)} (hI : Inv decl w bufs evs) {co : Nat}
    (hrun : w.cos co = .running) (cases : List (Case V)) (try_ : Bool) (hg : try_ = false → Grouped (cases.map Case.ch)) (hb : ∀ cs ∈ cases, cs.bound = true) :
    ∃ w' es bufs', select w co cases try_ = .ok (w', es) ∧ Inv decl w' bufs' (evs ++ es) ∧ ClosedOk w w' es ∧
      ((∃ k cs, cases[k]? = some cs ∧ ¬ NotReady decl w bufs cs ∧ (∀ j, j < k → ∀ cs', cases[j]? = some cs' → NotReady decl w bufs cs') ∧
          ∃ ok m, es.getLast? = some (.ret co (.picked k ok m)) ∧ (ok = false → m = none ∧ (w.chans cs.ch).closed = true) ∧
            (ok = true → (m.isSome = true ↔ cs.dir = .recv))) ∨
       ((∀ cs ∈ cases, NotReady decl w bufs cs) ∧ bufs' = bufs ∧
          ((try_ = true ∧ es = [.ret co .default]) ∨ (try_ = false ∧ es = [] ∧ w'.cos co = .waiting (.select cases) none)))) := by
  unfold select
  rcases pass1_inv (co := co) cases w 0 hI hrun hb with ⟨w1, h1, hP, hI1, hnr⟩ | ⟨w', es, bufs', h1, h2, h3, _, k, cs, h4, h5, h6, ok, m, h7, h8, h9⟩
  · rw [h1, Res.bind_ok]
    simp only
    cases try_ with
    | true =>
      rw [if_pos rfl]
      obtain ⟨g1, g2⟩ := ret_inv (co := co) hI1 w1.chans (fun _ => ⟨rfl, rfl, rfl, rfl, rfl, id⟩) .default rfl rfl
      exact ⟨_, _, bufs, rfl, g1, ClosedOk_pruned hP g2, Or.inr ⟨hnr, rfl, Or.inl ⟨rfl, rfl⟩⟩⟩
    | false =>
      rw [if_neg (by simp)]
      have hnd : (parkSeq none (cases.map Case.ch)).Nodup := by
        rw [parkSeq_none]
        cases hl : cases.map Case.ch with
        | nil => simp [lockSeq]
        | cons c cs =>
          rw [lockSeq, if_pos (by simp)]
          exact (lockSeq_grouped c cs (hl ▸ hg rfl)).1
      rw [if_neg (by simpa using hnd), enqueue_eq]
      have hrun1 : w1.cos co = .running := by rw [hP.2.1]; exact hrun
      refine ⟨_, _, bufs, rfl, ?_, ?_, Or.inr ⟨hnr, rfl, Or.inr ⟨rfl, rfl, by simp only [upd_same]⟩⟩⟩
      · rw [List.append_nil]
        have hcs : ∀ d' c' l, l ∈ news co w1.clock d' c' cases 0 → ∃ cs ∈ cases, cs.dir = d' ∧ cs.ch = c' ∧ NotReady decl w1 bufs cs ∧ l.bound = true ∧
            l.co = co ∧ l.arr = w1.clock ∧ cs.msg = l.msg := by
          intro d' c' l h
          obtain ⟨k, cs, g1, g2, g3, rfl⟩ := mem_news.1 h
          have hm := List.mem_of_getElem? g1
          exact ⟨cs, hm, g2, g3, (NotReady_pruned hP cs).2 (hnr cs hm), hb cs hm, rfl, rfl, rfl⟩
        refine ⟨S_park hI1.1 hrun1 (.select cases) (fun d' c' => news co w1.clock d' c' cases 0) ?_ ?_ ?_ ?_ ?_,
          park_frame hI1.1 hI1.2.1 hI1.2.2 hrun1 (.select cases) (fun d' c' => news co w1.clock d' c' cases 0) ?_ ?_ ?_⟩
        · intro d' c' l h
          obtain ⟨cs, _, g2, _, _, _, g6, g7, g8⟩ := hcs d' c' l h
          refine ⟨g6, g7, ?_⟩
          rintro rfl
          rw [← g8]
          cases cs with
          | send _ _ => rfl
          | recv _ _ => simp [Case.dir] at g2
        · intro d' c' l h
          obtain ⟨k, cs, g1, g2, g3, rfl⟩ := mem_news.1 h
          exact Or.inr ⟨rfl, cases, cs, rfl, by simpa using g1, g2, g3, rfl, rfl⟩
        · intro d' c'
          exact nodup_news _ _ _ _ _ _
        · intro d' c' h; simp at h
        · intro cases' h i cs hi
          injection h with h
          subst h
          exact ⟨⟨co, true, 0 + i, cs.msg, cs.bound, w1.clock⟩, mem_news.2 ⟨i, cs, hi, rfl, rfl, rfl⟩, by simp⟩
        · intro d' c' l h
          obtain ⟨cs, _, _, _, _, g5, g6, g7, _⟩ := hcs d' c' l h
          exact ⟨g6, g7, g5⟩
        · intro c' l h
          obtain ⟨cs, _, g2, g3, g4, _⟩ := hcs _ c' l h
          cases cs with
          | send _ _ => simp only [Case.ch] at g3; subst g3; exact g4
          | recv _ _ => simp [Case.dir] at g2
        · intro c' l h
          obtain ⟨cs, _, g2, g3, g4, _⟩ := hcs _ c' l h
          cases cs with
          | recv _ _ => simp only [Case.ch] at g3; subst g3; exact g4
          | send _ _ => simp [Case.dir] at g2
      · intro c' hc'
        simp only
        rw [hP.1]
        exact ⟨hc', by simp [accepted]⟩
  · rw [h1, Res.bind_ok]
    simp only
    rw [Nat.zero_add] at h7
    exact ⟨w', es, bufs', rfl, h2, h3, Or.inl ⟨k, cs, h4, h5, h6, ok, m, h7, h8, h9⟩⟩

/-- One loop of `close`. -/
theorem closeLoop_spec {chans : Nat → Chan V} {clock : Nat} {q0 : Dir → Nat → List (Lnk V)} {d : Dir} {c : Nat} :
    ∀ (f : Nat) (q : List (Lnk V)) (done : Nat → Bool) (cos : Nat → CoSt V), q.length < f →
      S (V := V) ⟨chans, updq q0 d c q, cos, done, clock⟩ →
      ∃ done' cos', closeLoop f q done cos = .ok (done', cos') ∧ S (V := V) ⟨chans, updq q0 d c [], cos', done', clock⟩ ∧
        ∀ co, cos' co = cos co ∨ ∃ wt r, cos co = .waiting wt none ∧ cos' co = .waiting wt (some r) ∧ r.ok = false ∧ r.msg = none ∧
          (wt = .op d c ∨ ∃ cases cs, wt = .select cases ∧ cases[r.idx]? = some cs ∧ cs.dir = d ∧ cs.ch = c) := by
  intro f
  induction f with
  | zero => intro q _ _ h; omega
  | succ f ih =>
    intro q done cos hf hS
    rw [closeLoop]
    have hsp := popq_spec hS d c
    simp only [updq_same] at hsp
    rcases hsp with ⟨hp, hdead⟩ | ⟨pre, l, rest, hq, hp, hpre, hlive⟩
    · rw [hp]
      simp only
      refine ⟨done, cos, rfl, ?_, fun co => Or.inl rfl⟩
      have := S_prune (d := d) (c := c) hS (by simp only [updq_same]; exact hdead)
      simp only at this
      have he : updq (updq q0 d c q) d c [] = updq q0 d c [] := by
        funext d' c'; unfold updq; split <;> rfl
      rw [he] at this
      exact this
    · rw [hp]
      simp only
      obtain ⟨wt, hwt, hwake, hS'⟩ := S_take (d := d) (c := c) (pre := pre) (rest := rest) hS (by simp only [updq_same]; exact hq) hpre hlive false none (by simp)
      simp only at hwake hS' hwt
      rw [hwake, Res.bind_ok]
      have he : updq (updq q0 d c q) d c rest = updq q0 d c rest := by
        funext d' c'; unfold updq; split <;> rfl
      rw [he] at hS'
      have hlen : rest.length < f := by
        rw [hq, List.length_append, List.length_cons] at hf; omega
      obtain ⟨dn, cos', h1, h2, h3⟩ := ih rest _ _ hlen hS'
      refine ⟨dn, cos', h1, h2, fun co => ?_⟩
      by_cases hco : co = l.co
      · subst hco
        refine Or.inr ⟨wt, ⟨l.idx, false, none⟩, hwt, ?_, rfl, rfl, ?_⟩
        rotate_left
        · rcases entry_wait hS (d := d) (c := c) (l := l) (by simp only [updq_same]; rw [hq]; simp) hwt with h | ⟨cases, cs, h1, h2, h3, h4, _⟩
          · exact Or.inl h
          · exact Or.inr ⟨cases, cs, h1, h2, h3, h4⟩
        rcases h3 l.co with h | ⟨wt', r', h, _⟩
        · rw [h, upd_same]
        · rw [upd_same] at h
          injection h with _ h
          simp at h
      · rcases h3 co with h | ⟨wt', r', h, h'⟩
        · rw [upd_ne _ _ hco] at h
          exact Or.inl h
        · rw [upd_ne _ _ hco] at h
          exact Or.inr ⟨wt', r', h, h'⟩

theorem close_inv {decl : Nat → Nat} {w : World V} {bufs : Nat → List V} {evs : List (Ev V)} (hI : Inv decl w bufs evs) (co : Nat) (c : Nat) :
    ∃ w' es, close w co c = .ok (w', es) ∧ Inv decl w' bufs (evs ++ es) ∧ ClosedOk w w' es ∧ (w'.chans c).closed = true ∧
      (((w.chans c).closed = true ∧ es = [.ret co (.closedAgain c)]) ∨
       ((w.chans c).closed = false ∧ es = [.ret co (.closed c)] ∧ (∀ d, w'.q d c = []) ∧
         ∀ co, w'.cos co = w.cos co ∨ ∃ wt r, w.cos co = .waiting wt none ∧ w'.cos co = .waiting wt (some r) ∧ r.ok = false ∧ r.msg = none ∧
          ∃ d, wt = .op d c ∨ ∃ cases cs, wt = .select cases ∧ cases[r.idx]? = some cs ∧ cs.dir = d ∧ cs.ch = c)) := by
  unfold close
  rcases Bool.eq_false_or_eq_true (w.chans c).closed with hcl | hcl
  · rw [if_pos hcl]
    obtain ⟨h1, h2⟩ := ret_inv (co := co) hI w.chans (fun _ => ⟨rfl, rfl, rfl, rfl, rfl, id⟩) (.closedAgain c) rfl rfl
    exact ⟨_, _, rfl, h1, h2, hcl, Or.inl ⟨hcl, rfl⟩⟩
  · rw [if_neg (by simp [hcl])]
    have hS0 : S (V := V) ⟨w.chans, updq w.q .recv c (w.q .recv c), w.cos, w.done, w.clock⟩ := by
      have he : updq w.q .recv c (w.q .recv c) = w.q := by
        funext d' c'; unfold updq; split
        · rename_i he; rw [he.1, he.2]
        · rfl
      rw [he]; exact hI.1
    obtain ⟨dn1, cos1, h1, hS1, hc1⟩ := closeLoop_spec ((w.q .recv c).length + 1) (w.q .recv c) w.done w.cos (Nat.lt_succ_self _) hS0
    rw [h1, Res.bind_ok]
    have hS1' : S (V := V) ⟨w.chans, updq (updq w.q .recv c []) .send c (w.q .send c), cos1, dn1, w.clock⟩ := by
      have he : updq (updq w.q .recv c []) .send c (w.q .send c) = updq w.q .recv c [] := by
        funext d' c'; unfold updq; split
        · rename_i he; rw [he.1, he.2]; simp
        · rfl
      rw [he]; exact hS1
    obtain ⟨dn2, cos2, h2, hS2, hc2⟩ := closeLoop_spec ((w.q .send c).length + 1) (w.q .send c) dn1 cos1 (Nat.lt_succ_self _) hS1'
    simp only
    rw [h2, Res.bind_ok]
    simp only
    have hcos : ∀ co, cos2 co = w.cos co ∨ ∃ wt r, w.cos co = .waiting wt none ∧ cos2 co = .waiting wt (some r) ∧ r.ok = false ∧ r.msg = none ∧
        ∃ d, wt = .op d c ∨ ∃ cases cs, wt = .select cases ∧ cases[r.idx]? = some cs ∧ cs.dir = d ∧ cs.ch = c := by
      intro co
      rcases hc1 co with g1 | ⟨wt, r, g1, g2, g3, g3', g3''⟩
      · rcases hc2 co with g4 | ⟨wt', r', g4, g5, g6, g7, g8⟩
        · exact Or.inl (g4.trans g1)
        · exact Or.inr ⟨wt', r', g1 ▸ g4, g5, g6, g7, _, g8⟩
      · rcases hc2 co with g4 | ⟨wt', r', g4, g5⟩
        · exact Or.inr ⟨wt, r, g1, g4.trans g2, g3, g3', _, g3''⟩
        · rw [g2] at g4
          injection g4 with _ g4
          simp at g4
    have hqe : ∀ d, updq (updq w.q .recv c []) .send c [] d c = [] := by
      intro d
      cases d with
      | send => rw [updq_same]
      | recv => rw [updq_ne _ _ (by simp), updq_same]
    refine ⟨_, _, rfl, ⟨S_chans hS2 _ _ (Nat.le_succ _), ?_⟩, ?_, by simp only [upd_same], Or.inr ⟨hcl, rfl, hqe, hcos⟩⟩
    · refine step_frame hI.2.1 hI.2.2 (Nat.le_succ _) ?_ ?_ ?_ (fun _ _ _ => rfl) (fun _ _ _ => rfl) ?_ ?_ ?_ ?_ ?_ ?_ ?_
      · intro c'
        by_cases hc : c' = c
        · subst hc
          simp only [upd_same]
          exact ⟨⟨rfl, (hI.2.1.ring c').2⟩, trivial⟩
        · simp only [upd_ne _ _ hc]
          exact ⟨hI.2.1.ring c', trivial⟩
      · intro d' c'
        simp only
        unfold updq
        split
        · exact List.nil_sublist _
        · split
          · exact List.nil_sublist _
          · exact .refl _
      · rintro l ⟨wt, h⟩
        simp only at h
        rcases hcos l.co with g | ⟨wt', r, _, g, _⟩
        · exact ⟨wt, g ▸ h⟩
        · rw [h] at g
          injection g with _ g
          simp at g
      · intro d' c' l hl
        by_cases hc : c' = c
        · subst hc
          have := hl.1
          simp only [hqe] at this
          simp at this
        · simp only [upd_ne _ _ hc]
      · intro c'; simp [accepted, delivered]
      · intro c'; exact Or.inl (by simp [acceptedAt])
      · intro co'
        have he : inFlight (cos2 co') = inFlight (w.cos co') := by
          rcases hcos co' with g | ⟨wt', r, g1, g, g2, _, _⟩
          · rw [g]
          · rw [g, g1]; simp [inFlight, g2]
        simp only [he]
        by_cases hh : co = co' <;> simp [deliveredTo, returned, hh, Ret.value]
      · intro co'
        have he : inFlightSend (cos2 co') = inFlightSend (w.cos co') := by
          rcases hcos co' with g | ⟨wt', r, g1, g, g2, _, _⟩
          · rw [g]
          · rw [g, g1]; simp [inFlightSend, g2]
        simp only [he]
        simp [acceptedFrom, sentOk, Ret.isSent]
      · intro c' hc'
        by_cases hc : c' = c
        · subst hc; simp only [upd_same]
        · simp only [upd_ne _ _ hc]; exact hc'
      · intro co' wt' r' h
        simp only at h
        rcases hcos co' with g | ⟨wt2, r2, g1, g, g2, g3, d2, g4⟩
        · exact Or.inl ⟨g ▸ h, by simp [lastComm, commOf]⟩
        · rw [h] at g
          injection g with ga gb
          injection gb with gb
          subst ga gb
          refine Or.inr ?_
          rcases g4 with rfl | ⟨cases, cs, rfl, k1, k2, k3⟩
          · exact ⟨fun hh => by rw [g2] at hh; simp at hh, fun _ => ⟨g3, by simp only [upd_same]⟩⟩
          · exact ⟨cs, k1, fun hh => by rw [g2] at hh; simp at hh, fun _ => ⟨g3, by rw [k3]; simp only [upd_same]⟩⟩
    · intro c' hc'
      refine ⟨?_, by simp [accepted]⟩
      by_cases hc : c' = c
      · subst hc; simp only [upd_same]
      · simp only [upd_ne _ _ hc]; exact hc'

theorem resume_frame {decl : Nat → Nat} {w w' : World V} {bufs : Nat → List V} {evs : List (Ev V)} (hI : Inv decl w bufs evs) {co : Nat} {wt : Wait V} {r : Wake V}
    (hw : w.cos co = .waiting wt (some r)) (hclock : w.clock ≤ w'.clock)
    (hch : ∀ c, (w'.chans c).buf = (w.chans c).buf ∧ (w'.chans c).cap = (w.chans c).cap ∧ (w'.chans c).front = (w.chans c).front ∧
      (w'.chans c).rear = (w.chans c).rear ∧ (w'.chans c).closed = (w.chans c).closed ∧
      ((w'.chans c).successful = true → (w.chans c).successful = true))
    (hsub : ∀ d c, (w'.q d c).Sublist (w.q d c)) (hgone : ∀ d c l, l ∈ w'.q d c → l.co ≠ co)
    (hcos : w'.cos = upd w.cos co .running) (ret : Ret V)
    (hR : ret.value.toList = inFlight (w.cos co)) (hSn : (if ret.isSent = true then 1 else 0) = inFlightSend (w.cos co)) :
    B decl w' bufs ∧ Lg w' bufs (evs ++ [.ret co ret]) := by
  refine step_frame hI.2.1 hI.2.2 hclock ?_ hsub ?_ (fun _ _ _ => rfl) (fun _ _ _ => rfl) (fun _ c _ _ => (hch c).2.2.2.2.1) ?_ ?_ ?_ ?_ ?_ ?_
  · intro c
    obtain ⟨h1, h2, h3, h4, h5, h6⟩ := hch c
    refine ⟨?_, by rw [h1]⟩
    have := hI.2.1.ring c
    unfold RingOk at this ⊢
    rw [h1, h2, h3, h4]
    refine ⟨?_, this.2⟩
    cases hh : (w'.chans c).successful with
    | false => rfl
    | true => rw [this.1] at h6; simpa using h6 hh
  · rintro l ⟨wt', h⟩
    rw [hcos] at h
    by_cases hl : l.co = co
    · rw [hl, upd_same] at h; simp at h
    · rw [upd_ne _ _ hl] at h; exact ⟨wt', h⟩
  · intro c'; simp [accepted, delivered]
  · intro c'; exact Or.inl (by simp [acceptedAt])
  · intro co'
    rw [hcos]
    clear hgone hch
    by_cases h : co = co'
    · subst h
      rw [upd_same, ← hR]
      cases hrv : ret.value <;> simp [deliveredTo, returned, inFlight, hrv]
    · rw [upd_ne _ _ (Ne.symm h)]
      simp [deliveredTo, returned, h]
  · intro co'
    rw [hcos]
    by_cases h : co = co'
    · subst h
      rw [upd_same, ← hSn]
      cases hb : ret.isSent <;> simp [acceptedFrom, sentOk, inFlightSend, hb]
    · rw [upd_ne _ _ (Ne.symm h)]
      simp [acceptedFrom, sentOk, h]
  · intro c hc
    rw [(hch c).2.2.2.2.1]; exact hc
  · intro co' wt' r' h
    rw [hcos] at h
    by_cases hc : co' = co
    · subst hc; rw [upd_same] at h; simp at h
    · rw [upd_ne _ _ hc] at h
      exact Or.inl ⟨h, by simp [lastComm, commOf]⟩

theorem resume_inv {decl : Nat → Nat} {w : World V} {bufs : Nat → List V} {evs : List (Ev V)} (hI : Inv decl w bufs evs) (co : Nat) :
    ∃ w' es, resume w co = .ok (w', es) ∧ Inv decl w' bufs (evs ++ es) ∧ ClosedOk w w' es ∧
      (∀ d c r, w.cos co = .waiting (.op d c) (some r) → r.ok = false →
        es = [.ret co (closedRet d c)]) ∧
      (∀ wt r, w.cos co = .waiting wt (some r) → w'.cos co = .running ∧ ∃ ret, es = [.ret co ret]) ∧
      (∀ d c r, w.cos co = .waiting (.op d c) (some r) → ∃ ret, opRet d c r = .ok ret ∧ es = [.ret co ret]) ∧
      (∀ cases r, w.cos co = .waiting (.select cases) (some r) → es = [.ret co (.picked r.idx r.ok r.msg)]) := by
  have hnoop : (∃ w' es, (.ok (w, []) : Res (World V × List (Ev V))) = .ok (w', es) ∧ Inv decl w' bufs (evs ++ es) ∧ ClosedOk w w' es) := by
    refine ⟨w, [], rfl, by rw [List.append_nil]; exact hI, fun c h => ⟨h, by simp [accepted]⟩⟩
  unfold resume
  cases hco : w.cos co with
  | running =>
    obtain ⟨w', es, h1, h2, h3⟩ := hnoop
    exact ⟨w', es, h1, h2, h3, by simp, by simp, by simp, by simp⟩
  | waiting wt r =>
    cases r with
    | none =>
      obtain ⟨w', es, h1, h2, h3⟩ := hnoop
      exact ⟨w', es, by cases wt <;> exact h1, h2, h3, by simp, by simp, by simp, by simp⟩
    | some r =>
      cases wt with
      | op d c =>
        simp only
        have hgone : ∀ d c l, l ∈ w.q d c → l.co ≠ co := by
          intro d' c' l hl he
          rcases (hI.1.entry d' c' l hl).1 with ⟨_, _, h, _⟩ | ⟨_, cases, r, cs, h, _⟩
          · rw [he, hco] at h
            injection h with _ h; simp at h
          · rw [he, hco] at h
            injection h with h _; simp at h
        have hd : w.done co = false := by
          cases h : w.done co with
          | false => rfl
          | true =>
            obtain ⟨cases, r, h⟩ := (hI.1.doneSel co).1 h
            rw [hco] at h
            injection h with h _; simp at h
        have hS' := S_resume hI.1 hco w.q w.done (fun _ _ => .refl _) hgone (fun _ _ _ h _ => h) hd (fun _ _ => rfl)
        have key : ∃ ret, opRet d c r = .ok ret ∧ ret.value.toList = inFlight (w.cos co) ∧ (if ret.isSent = true then 1 else 0) = inFlightSend (w.cos co) ∧
            (r.ok = false → ret = closedRet d c) := by
          rw [hco]
          have hwk := hI.1.wokenOp co d c r hco
          obtain ⟨ri, rok, rm⟩ := r
          cases rok with
          | false => cases d <;> exact ⟨_, rfl, by simp [inFlight, Ret.value], by simp [inFlightSend, Ret.isSent], fun _ => rfl⟩
          | true =>
            simp only at hwk
            have hwk := hwk trivial
            cases d with
            | send =>
              cases rm with
              | none => exact ⟨_, rfl, by simp [inFlight, Ret.value], by simp [inFlightSend, Ret.isSent], by simp⟩
              | some v => simp at hwk
            | recv =>
              cases rm with
              | none => simp at hwk
              | some v => exact ⟨_, rfl, by simp [inFlight, Ret.value], by simp [inFlightSend, Ret.isSent], by simp⟩
        obtain ⟨ret, k1, k2, k3, k4⟩ := key
        rw [k1, Res.bind_ok]
        refine ⟨_, _, rfl, ⟨S_chans hS' w.chans _ (Nat.le_succ _), ?_⟩, fun c h => ⟨h, by simp [accepted]⟩, ?_, ?_, ?_, ?_⟩
        · exact resume_frame (w' := { w with cos := upd w.cos co .running, clock := w.clock + 1 }) hI hco (Nat.le_succ _)
            (fun _ => ⟨rfl, rfl, rfl, rfl, rfl, id⟩) (fun _ _ => .refl _) hgone rfl ret k2 k3
        · intro d' c' r' h hf
          injection h with h1 h2
          injection h1 with h1 h3
          injection h2 with h2
          subst h1 h2 h3
          rw [k4 hf]
        · intro wt r' _
          exact ⟨by simp only [upd_same], ret, rfl⟩
        · intro d' c' r' h
          injection h with h1 h2
          injection h1 with h1 h3
          injection h2 with h2
          subst h1 h2 h3
          exact ⟨ret, k1, rfl⟩
        · intro cases r' h
          injection h with h _; simp at h
      | select cases =>
        simp only
        obtain ⟨⟨cs, hcs⟩, hidx⟩ := hI.1.wokenSel co cases r hco
        rw [hcs]
        simp only
        obtain ⟨h1, h2, h3⟩ := dequeue_spec co r.idx w.q cases 0 hI.1.nodup (by
          intro d c l hl hc
          refine ⟨hidx d c l hl hc, ?_⟩
          rcases (hI.1.entry d c l hl).1 with ⟨_, _, h, _⟩ | ⟨_, cases', r', cs', h, h4, h5, h6, _⟩
          · rw [hc, hco] at h
            injection h with h _; simp at h
          · rw [hc, hco] at h
            injection h with h _
            injection h with h
            subst h
            exact ⟨l.idx, cs', h4, by omega, h5, h6⟩)
        have hS' := S_resume hI.1 hco (dequeue co r.idx w.q cases 0) (upd w.done co false) h1 h2 h3 (upd_same _ _ _) (fun x hx => upd_ne _ _ hx)
        by_cases hs : cs.dir = .send ∧ r.ok = false
        · rw [if_pos hs]
          refine ⟨_, _, rfl, ⟨S_chans hS' _ (w.clock + 1) (Nat.le_succ _), ?_⟩, ?_, ?_, ?_, ?_, ?_⟩
          · refine resume_frame hI hco (Nat.le_succ _) ?_ h1 h2 rfl _ ?_ ?_
            · intro c
              by_cases hc : c = cs.ch
              · subst hc; simp [upd_same]
              · simp [upd_ne _ _ hc]
            · rw [hco]; simp [Ret.value, inFlight, hs.2]
            · rw [hco]; simp [Ret.isSent, inFlightSend, hs.2]
          · intro c h
            refine ⟨?_, by simp [accepted]⟩
            by_cases hc : c = cs.ch
            · subst hc; simp only [upd_same]; exact h
            · simp only [upd_ne _ _ hc]; exact h
          · intro d c r' h
            injection h with h _; simp at h
          · intro wt r' _
            exact ⟨by simp only [upd_same], _, rfl⟩
          · intro d c r' h
            injection h with h _; simp at h
          · intro cases' r' h
            injection h with h h'
            injection h' with h'
            subst h'
            have hc := hI.2.2.comm co _ _ hco
            obtain ⟨cs', _, _, hc⟩ := hc
            rw [hs.2, (hc hs.2).1]
        · rw [if_neg hs]
          refine ⟨_, _, rfl, ⟨S_chans hS' w.chans (w.clock + 1) (Nat.le_succ _), ?_⟩, fun c h => ⟨h, by simp [accepted]⟩, ?_, ?_, ?_, ?_⟩
          · refine resume_frame (w' := ⟨w.chans, dequeue co r.idx w.q cases 0, upd w.cos co .running, upd w.done co false, w.clock + 1⟩) hI hco (Nat.le_succ _)
              (fun _ => ⟨rfl, rfl, rfl, rfl, rfl, id⟩) h1 h2 rfl _ ?_ ?_
            · rw [hco]
              obtain ⟨ri, rok, rm⟩ := r
              cases rok <;> cases rm <;> simp [Ret.value, inFlight]
            · rw [hco]
              obtain ⟨ri, rok, rm⟩ := r
              cases rok <;> cases rm <;> simp [Ret.isSent, inFlightSend]
          · intro d c r' h
            injection h with h _; simp at h
          · intro wt r' _
            exact ⟨by simp only [upd_same], _, rfl⟩
          · intro d c r' h
            injection h with h _; simp at h
          · intro cases' r' h
            injection h with h h'
            injection h' with h'
            subst h'
            rfl

end Nature.Chan
