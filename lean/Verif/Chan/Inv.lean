import Verif.Chan.Model
/-! Invariants of the channel model. -/
set_option linter.unusedSectionVars false
namespace Nature.Chan
open Nature
variable {V : Type}

theorem upd_same {α β : Type} [DecidableEq α] (f : α → β) (k : α) (v : β) : upd f k v k = v := if_pos rfl
theorem upd_ne {α β : Type} [DecidableEq α] (f : α → β) {k x : α} (v : β) (h : x ≠ k) : upd f k v x = f x := if_neg h
theorem updq_same (q : Dir → Nat → List (Lnk V)) (d : Dir) (c : Nat) (l : List (Lnk V)) : updq q d c l d c = l := if_pos ⟨rfl, rfl⟩
theorem updq_ne (q : Dir → Nat → List (Lnk V)) {d d' : Dir} {c c' : Nat} (l : List (Lnk V)) (h : ¬ (d' = d ∧ c' = c)) :
    updq q d c l d' c' = q d' c' := if_neg h

/-! ### The ring buffer -/

/-- The ring holds exactly `xs` (and the flag `successful` is not set). -/
def RingOk (c : Chan V) (xs : List V) : Prop :=
  c.successful = false ∧ ((c.buf.length = 0 ∧ c.front = 0 ∧ c.rear = 0 ∧ xs = []) ∨
  (0 < c.buf.length ∧ c.cap = c.buf.length ∧ c.front < c.buf.length ∧ c.rear = (c.front + xs.length) % c.buf.length ∧
    xs.length < c.buf.length ∧ ∀ i, i < xs.length → c.buf[(c.front + i) % c.buf.length]? = xs[i]?))

theorem mod_add_lt {L f n : Nat} (hf : f < L) (hn : n < L) : (f + n) % L = if f + n < L then f + n else f + n - L := by
  by_cases h : f + n < L
  · rw [if_pos h, Nat.mod_eq_of_lt h]
  · rw [if_neg h, Nat.mod_eq_sub_mod (by omega), Nat.mod_eq_of_lt (by omega)]

theorem ring_empty {c : Chan V} {xs : List V} (h : RingOk c xs) : bufEmpty c = true ↔ xs = [] := by
  unfold bufEmpty
  rw [decide_eq_true_eq]
  rcases h with ⟨_, ⟨_, h1, h2, h3⟩ | ⟨h0, _, h1, h2, h3, _⟩⟩
  · exact ⟨fun _ => h3, fun _ => by omega⟩
  · rw [h2, mod_add_lt h1 h3]
    constructor
    · intro h
      apply List.eq_nil_of_length_eq_zero
      split at h <;> omega
    · rintro rfl
      simp; omega

theorem ring_full {c : Chan V} {xs : List V} (h : RingOk c xs) : bufFull c = true ↔ xs.length = c.buf.length - 1 := by
  unfold bufFull
  rcases h with ⟨_, ⟨h0, h1, h2, h3⟩ | ⟨h0, _, h1, h2, h3, _⟩⟩
  · rw [if_pos h0, h3, h0]; simp
  · rw [if_neg (by omega), decide_eq_true_eq, h2, mod_add_lt h1 h3]
    constructor
    · intro h
      by_cases h4 : c.front + xs.length < c.buf.length
      · rw [if_pos h4] at h
        by_cases h5 : c.front + xs.length + 1 < c.buf.length
        · rw [Nat.mod_eq_of_lt h5] at h; omega
        · rw [show c.front + xs.length + 1 = c.buf.length by omega, Nat.mod_self] at h; omega
      · rw [if_neg h4, Nat.mod_eq_of_lt (by omega)] at h; omega
    · intro h
      by_cases h4 : c.front + xs.length < c.buf.length
      · rw [if_pos h4, show c.front + xs.length + 1 = c.buf.length by omega, Nat.mod_self]; omega
      · rw [if_neg h4, Nat.mod_eq_of_lt (by omega)]; omega

theorem ring_pop {c : Chan V} {x : V} {xs : List V} (h : RingOk c (x :: xs)) :
    ∃ c', bufPop c = .ok (x, c') ∧ RingOk c' xs ∧ c'.buf.length = c.buf.length ∧ c'.closed = c.closed := by
  have hne : bufEmpty c = false := by
    cases he : bufEmpty c with
    | false => rfl
    | true => simpa using (ring_empty h).1 he
  unfold bufPop
  rw [if_neg (by simp [hne])]
  rcases h with ⟨hs, ⟨_, _, _, h⟩ | ⟨h0, hc, h1, h2, h3, h4⟩⟩
  · simp at h
  · have h5 := h4 0 (by simp)
    rw [Nat.add_zero, Nat.mod_eq_of_lt h1] at h5
    rw [h5]
    refine ⟨_, rfl, ⟨hs, Or.inr ⟨h0, hc, ?_, ?_, ?_, ?_⟩⟩, rfl, rfl⟩
    · simp only [hc]; exact Nat.mod_lt _ h0
    · simp only [hc, h2, List.length_cons]
      rw [Nat.mod_add_mod]
      congr 1
      omega
    · simp at h3 ⊢; omega
    · intro i hi
      have := h4 (i + 1) (by simp; omega)
      simp only [hc]
      rw [Nat.mod_add_mod, show c.front + 1 + i = c.front + (i + 1) by omega, this]
      simp

theorem ring_push {c : Chan V} {xs : List V} (h : RingOk c xs) (hf : bufFull c = false) (v : V) :
    ∃ c', bufPush c v = .ok c' ∧ RingOk c' (xs ++ [v]) ∧ c'.buf.length = c.buf.length ∧ c'.closed = c.closed := by
  have hnf : ¬ xs.length = c.buf.length - 1 := fun h' => by rw [← ring_full h, hf] at h'; simp at h'
  unfold bufPush
  rw [if_neg (by simp [hf])]
  rcases h with ⟨hs, ⟨h0, _, _, h⟩ | ⟨h0, hc, h1, h2, h3, h4⟩⟩
  · subst h; simp [h0] at hnf
  · have hr : c.rear < c.buf.length := by rw [h2]; exact Nat.mod_lt _ h0
    rw [if_pos hr]
    refine ⟨_, rfl, ⟨hs, Or.inr ⟨by simpa using h0, by simpa using hc, by simpa using h1, ?_, ?_, ?_⟩⟩, by simp, rfl⟩
    · simp only [List.length_set, List.length_append, List.length_singleton]
      rw [h2, Nat.mod_add_mod]
      congr 1
    · simp; omega
    · intro i hi
      simp only [List.length_set]
      simp only [List.length_append, List.length_singleton] at hi
      by_cases hlast : i = xs.length
      · subst hlast
        rw [← h2, List.getElem?_set_self hr]
        simp
      · have hi' : i < xs.length := by omega
        rw [List.getElem?_set_ne, h4 i hi', List.getElem?_append_left hi']
        rw [h2, mod_add_lt h1 h3, mod_add_lt h1 (by omega)]
        split <;> split <;> omega

/-! ### Structure of the wait queues -/

/-- The waiter has not been woken yet. -/
def Live (w : World V) (l : Lnk V) : Prop := ∃ wt, w.cos l.co = .waiting wt none

def EntryOk (w : World V) (d : Dir) (c : Nat) (l : Lnk V) : Prop :=
  ((l.sel = false ∧ l.idx = 0 ∧ w.cos l.co = .waiting (.op d c) none ∧ l.bound = true) ∨
   (l.sel = true ∧ ∃ cases r cs, w.cos l.co = .waiting (.select cases) r ∧ cases[l.idx]? = some cs ∧ cs.dir = d ∧ cs.ch = c ∧
      cs.msg = l.msg ∧ cs.bound = l.bound ∧ w.done l.co = r.isSome)) ∧
  (d = .send → l.msg.isSome = true) ∧ l.arr < w.clock

structure S (w : World V) : Prop where
  entry : ∀ d c l, l ∈ w.q d c → EntryOk w d c l
  nodup : ∀ d c, ((w.q d c).map fun l => (l.co, l.idx)).Nodup
  waitOp : ∀ co d c, w.cos co = .waiting (.op d c) none → ∃ l ∈ w.q d c, l.co = co
  waitSel : ∀ co cases, w.cos co = .waiting (.select cases) none →
    ∀ (i : Nat) cs, cases[i]? = some cs → ∃ l ∈ w.q cs.dir cs.ch, l.co = co ∧ l.idx = i
  doneSel : ∀ co, w.done co = true ↔ ∃ cases r, w.cos co = .waiting (.select cases) (some r)
  wokenSel : ∀ co cases r, w.cos co = .waiting (.select cases) (some r) →
    (∃ cs, cases[r.idx]? = some cs) ∧ ∀ d c l, l ∈ w.q d c → l.co = co → l.idx ≠ r.idx
  wokenOp : ∀ co d c r, w.cos co = .waiting (.op d c) (some r) → r.ok = true → (r.msg.isSome = true ↔ d = .recv)

theorem Live.sel {w : World V} (hS : S w) {d c l} (h : l ∈ w.q d c) : Live w l ↔ (l.sel = true → w.done l.co = false) := by
  obtain ⟨h1 | ⟨h1, cases, r, cs, h2, _, _, _, _, _, h3⟩, _⟩ := hS.entry d c l h
  · exact ⟨fun _ h => by rw [h1.1] at h; simp at h, fun _ => ⟨_, h1.2.2.1⟩⟩
  · rw [h3]
    constructor
    · rintro ⟨wt, h4⟩ _
      rw [h2] at h4
      injection h4 with _ h5
      rw [h5]; rfl
    · intro h4
      have := h4 h1
      cases r with
      | none => exact ⟨_, h2⟩
      | some r => simp at this

/-- `done` after popping `l`. -/
def done' (done : Nat → Bool) (l : Lnk V) : Nat → Bool := if l.sel = true then upd done l.co true else done

theorem popq_aux {w : World V} (hS : S w) (q : List (Lnk V)) (d : Dir) (c : Nat) (hq : ∀ l ∈ q, l ∈ w.q d c) :
    (popq w.done q = (none, [], w.done) ∧ ∀ l ∈ q, ¬ Live w l) ∨
    (∃ pre l rest, q = pre ++ l :: rest ∧ popq w.done q = (some l, rest, done' w.done l) ∧ (∀ x ∈ pre, ¬ Live w x) ∧ Live w l) := by
  induction q with
  | nil => exact Or.inl ⟨rfl, by simp⟩
  | cons l q ih =>
    have hl := hq l List.mem_cons_self
    have hlive := Live.sel hS hl
    unfold popq
    by_cases h1 : l.sel = true
    · rw [if_pos h1]
      by_cases h2 : w.done l.co = true
      · rw [if_pos h2]
        have hdead : ¬ Live w l := by rw [hlive]; intro h; rw [h h1] at h2; simp at h2
        rcases ih fun x hx => hq x (List.mem_cons_of_mem _ hx) with ⟨e, h3⟩ | ⟨pre, l', rest, e1, e2, h3, h4⟩
        · exact Or.inl ⟨e, fun x hx => by rcases List.mem_cons.1 hx with rfl | hx; exact hdead; exact h3 x hx⟩
        · refine Or.inr ⟨l :: pre, l', rest, by rw [e1]; rfl, e2, fun x hx => ?_, h4⟩
          rcases List.mem_cons.1 hx with rfl | hx
          · exact hdead
          · exact h3 x hx
      · rw [if_neg h2]
        refine Or.inr ⟨[], l, q, rfl, by simp [done', h1], by simp, hlive.2 fun _ => by simpa using h2⟩
    · rw [if_neg h1]
      exact Or.inr ⟨[], l, q, rfl, by simp [done', h1], by simp, hlive.2 fun h => absurd h h1⟩

theorem popq_spec {w : World V} (hS : S w) (d : Dir) (c : Nat) :
    (popq w.done (w.q d c) = (none, [], w.done) ∧ ∀ l ∈ w.q d c, ¬ Live w l) ∨
    (∃ pre l rest, w.q d c = pre ++ l :: rest ∧ popq w.done (w.q d c) = (some l, rest, done' w.done l) ∧ (∀ x ∈ pre, ¬ Live w x) ∧ Live w l) :=
  popq_aux hS _ d c fun _ h => h

theorem S_prune {w : World V} (hS : S w) {d c} (hdead : ∀ l ∈ w.q d c, ¬ Live w l) : S { w with q := updq w.q d c [] } := by
  have hsub : ∀ d' c' l, l ∈ updq w.q d c [] d' c' → l ∈ w.q d' c' := by
    intro d' c' l h
    unfold updq at h
    split at h
    · simp at h
    · exact h
  have hkeep : ∀ d' c' l, l ∈ w.q d' c' → Live w l → l ∈ updq w.q d c [] d' c' := by
    intro d' c' l h hl
    unfold updq
    split
    · rename_i he
      exact absurd hl (hdead l (by rw [he.1, he.2] at h; exact h))
    · exact h
  constructor
  · intro d' c' l h; exact hS.entry d' c' l (hsub _ _ _ h)
  · intro d' c'
    simp only [updq]
    split
    · simp
    · exact hS.nodup d' c'
  · intro co d' c' h
    obtain ⟨l, h1, h2⟩ := hS.waitOp co d' c' h
    exact ⟨l, hkeep _ _ _ h1 ⟨_, by rw [h2]; exact h⟩, h2⟩
  · intro co cases h i cs hc
    obtain ⟨l, h1, h2, h3⟩ := hS.waitSel co cases h i cs hc
    exact ⟨l, hkeep _ _ _ h1 ⟨_, by rw [h2]; exact h⟩, h2, h3⟩
  · exact hS.doneSel
  · intro co cases r h
    obtain ⟨h1, h2⟩ := hS.wokenSel co cases r h
    exact ⟨h1, fun d' c' l hl => h2 d' c' l (hsub _ _ _ hl)⟩
  · exact hS.wokenOp

/-- Popping the live waiter `l` and waking it. -/
theorem S_take {w : World V} (hS : S w) {d c} {pre rest : List (Lnk V)} {l : Lnk V} (hq : w.q d c = pre ++ l :: rest)
    (hpre : ∀ x ∈ pre, ¬ Live w x) (hlive : Live w l) (ok : Bool) (msg : Option V) (hmsg : ok = true → l.bound = true → (msg.isSome = true ↔ d = .recv)) :
    ∃ wt, w.cos l.co = .waiting wt none ∧ wake w.cos l.co ⟨l.idx, ok, msg⟩ = .ok (upd w.cos l.co (.waiting wt (some ⟨l.idx, ok, msg⟩))) ∧
      S { w with q := updq w.q d c rest, cos := upd w.cos l.co (.waiting wt (some ⟨l.idx, ok, msg⟩)), done := done' w.done l } := by
  have hmem : l ∈ w.q d c := by rw [hq]; simp
  obtain ⟨wt, hwt⟩ := hlive
  refine ⟨wt, hwt, by unfold wake; rw [hwt], ?_⟩
  have hent := hS.entry d c l hmem
  have hnd := hS.nodup d c
  rw [hq, List.map_append, List.map_cons, List.nodup_append] at hnd
  have hlrest : ∀ x ∈ rest, (x.co, x.idx) ≠ (l.co, l.idx) := by
    intro x hx he
    exact (List.nodup_cons.1 hnd.2.1).1 (by rw [← he]; exact List.mem_map_of_mem hx)
  have hsub : ∀ d' c' x, x ∈ updq w.q d c rest d' c' → x ∈ w.q d' c' ∧ (d' = d ∧ c' = c → x ∈ rest) := by
    intro d' c' x h
    unfold updq at h
    split at h
    · rename_i he
      exact ⟨by rw [he.1, he.2, hq]; simp [h], fun _ => h⟩
    · rename_i he
      exact ⟨h, fun h' => absurd h' he⟩
  -- entries of the woken coroutine
  have hother : ∀ d' c' x, x ∈ updq w.q d c rest d' c' → x.co = l.co → x.sel = true ∧ l.sel = true ∧ x.idx ≠ l.idx := by
    intro d' c' x hx hco
    obtain ⟨hx1, hx2⟩ := hsub d' c' x hx
    obtain ⟨he, _⟩ := hS.entry d' c' x hx1
    obtain ⟨hel, _⟩ := hent
    rcases he with ⟨a1, a2, a3, _⟩ | ⟨a1, cases, r, cs, a2, a3, a4, a5, _⟩
    · rcases hel with ⟨b1, b2, b3, _⟩ | ⟨b1, cases', r', cs', b2, _⟩
      · rw [hco, b3] at a3
        injection a3 with a3 _
        injection a3 with a3 a4
        have := hx2 ⟨a3.symm, a4.symm⟩
        exact absurd (by rw [hco, a2, b2]) (hlrest x this)
      · rw [hco, b2] at a3
        injection a3 with a3 _
        exact absurd a3 (by simp)
    · rcases hel with ⟨b1, b2, b3, _⟩ | ⟨b1, cases', r', cs', b2, b3, b4, b5, _⟩
      · rw [hco, b3] at a2
        injection a2 with a2 _
        exact absurd a2 (by simp)
      · refine ⟨a1, b1, fun hidx => ?_⟩
        rw [hco, b2] at a2
        injection a2 with a2 _
        injection a2 with a2
        subst a2
        rw [hidx, b3] at a3
        have := Option.some.inj a3
        subst this
        have := hx2 ⟨a4.symm.trans b4, a5.symm.trans b5⟩
        exact absurd (by rw [hco, hidx]) (hlrest x this)
  have hdone : ∀ co, co ≠ l.co → done' w.done l co = w.done co := by
    intro co h
    unfold done'
    split
    · exact upd_ne _ _ h
    · rfl
  constructor
  · intro d' c' x hx
    obtain ⟨hx1, hx2⟩ := hsub d' c' x hx
    obtain ⟨he, h2, h3⟩ := hS.entry d' c' x hx1
    refine ⟨?_, h2, h3⟩
    by_cases hco : x.co = l.co
    · obtain ⟨s1, s2, s3⟩ := hother d' c' x hx hco
      rcases he with ⟨a1, _⟩ | ⟨a1, cases, r, cs, a2, a3, a4, a5, a6, a7, a8⟩
      · rw [s1] at a1; simp at a1
      · rw [hco, hwt] at a2
        injection a2 with a2 _
        refine Or.inr ⟨a1, cases, some ⟨l.idx, ok, msg⟩, cs, ?_, a3, a4, a5, a6, a7, ?_⟩
        · simp only [hco, upd_same, a2]
        · simp only [done', s2, if_true, hco, upd_same]; rfl
    · rcases he with ⟨a1, a2, a3, a4⟩ | ⟨a1, cases, r, cs, a2, a3, a4, a5, a6, a7, a8⟩
      · exact Or.inl ⟨a1, a2, by simp only [upd_ne _ _ hco]; exact a3, a4⟩
      · exact Or.inr ⟨a1, cases, r, cs, by simp only [upd_ne _ _ hco]; exact a2, a3, a4, a5, a6, a7, by simp only [hdone _ hco]; exact a8⟩
  · intro d' c'
    by_cases he : d' = d ∧ c' = c
    · obtain ⟨rfl, rfl⟩ := he
      simp only [updq_same]
      exact (List.nodup_cons.1 hnd.2.1).2
    · simp only [updq_ne _ _ he]
      exact hS.nodup d' c'
  · intro co d' c' h
    simp only at h
    by_cases hco : co = l.co
    · subst hco
      rw [upd_same] at h
      injection h with _ h
      simp at h
    · rw [upd_ne _ _ hco] at h
      obtain ⟨x, h1, h2⟩ := hS.waitOp co d' c' h
      refine ⟨x, ?_, h2⟩
      by_cases he : d' = d ∧ c' = c
      · obtain ⟨rfl, rfl⟩ := he
        simp only [updq_same]
        rw [hq] at h1
        rcases List.mem_append.1 h1 with h1 | h1
        · exact absurd ⟨_, by rw [h2]; exact h⟩ (hpre x h1)
        · rcases List.mem_cons.1 h1 with rfl | h1
          · exact absurd h2.symm hco
          · exact h1
      · simp only [updq_ne _ _ he]; exact h1
  · intro co cases h i cs hc
    simp only at h
    by_cases hco : co = l.co
    · subst hco
      rw [upd_same] at h
      injection h with _ h
      simp at h
    · rw [upd_ne _ _ hco] at h
      obtain ⟨x, h1, h2, h3⟩ := hS.waitSel co cases h i cs hc
      refine ⟨x, ?_, h2, h3⟩
      by_cases he : cs.dir = d ∧ cs.ch = c
      · rw [he.1, he.2] at h1 ⊢
        simp only [updq_same]
        rw [hq] at h1
        rcases List.mem_append.1 h1 with h1 | h1
        · exact absurd ⟨_, by rw [h2]; exact h⟩ (hpre x h1)
        · rcases List.mem_cons.1 h1 with rfl | h1
          · exact absurd h2.symm hco
          · exact h1
      · simp only [updq_ne _ _ he]; exact h1
  · intro co
    by_cases hco : co = l.co
    · subst hco
      simp only [upd_same]
      obtain ⟨hel, _⟩ := hent
      rcases hel with ⟨b1, b2, b3, _⟩ | ⟨b1, cases', r', cs', b2, b3, b4, b5, _⟩
      · have hd : w.done l.co = false := by
          cases hd : w.done l.co with
          | false => rfl
          | true =>
            obtain ⟨cases, r, h⟩ := (hS.doneSel l.co).1 hd
            rw [b3] at h
            injection h with h _
            simp at h
        simp only [done', b1, Bool.false_eq_true, if_false, hd, false_iff]
        rintro ⟨cases, r, h⟩
        rw [b3] at hwt
        injection hwt with hwt _
        injection h with h _
        rw [← hwt] at h
        simp at h
      · simp only [done', b1, if_true, upd_same, true_iff]
        rw [b2] at hwt
        injection hwt with hwt _
        exact ⟨cases', _, by rw [← hwt]⟩
    · simp only [hdone _ hco, upd_ne _ _ hco]
      exact hS.doneSel co
  · intro co cases r h
    simp only at h
    by_cases hco : co = l.co
    · subst hco
      rw [upd_same] at h
      injection h with h1 h2
      subst h1
      have h2 := Option.some.inj h2
      subst h2
      obtain ⟨hel, _⟩ := hent
      refine ⟨?_, fun d' c' x hx hco => (hother d' c' x hx hco).2.2⟩
      rcases hel with ⟨b1, b2, b3, _⟩ | ⟨b1, cases', r', cs', b2, b3, b4, b5, _⟩
      · rw [hwt] at b3
        injection b3 with b3 _
        simp at b3
      · rw [hwt] at b2
        injection b2 with b2 _
        injection b2 with b2
        subst b2
        exact ⟨_, b3⟩
    · rw [upd_ne _ _ hco] at h
      obtain ⟨h1, h2⟩ := hS.wokenSel co cases r h
      exact ⟨h1, fun d' c' x hx => h2 d' c' x (hsub d' c' x hx).1⟩
  · intro co d' c' r h hok
    simp only at h
    by_cases hco : co = l.co
    · subst hco
      rw [upd_same] at h
      injection h with h1 h2
      have h2 := Option.some.inj h2
      subst h1 h2
      obtain ⟨hel, _⟩ := hent
      rcases hel with ⟨b1, b2, b3, b4⟩ | ⟨b1, cases', r', cs', b2, _⟩
      · rw [hwt] at b3
        injection b3 with b3 _
        injection b3 with b3 _
        rw [b3]
        exact hmsg hok b4
      · rw [hwt] at b2
        injection b2 with b2 _
        simp at b2
    · rw [upd_ne _ _ hco] at h
      exact hS.wokenOp co d' c' r h hok

/-- Changes outside the wait structure. -/
theorem S_chans {w : World V} (hS : S w) (chans : Nat → Chan V) (clock : Nat) (hc : w.clock ≤ clock) :
    S { w with chans := chans, clock := clock } := by
  constructor
  · intro d c l h
    obtain ⟨h1, h2, h3⟩ := hS.entry d c l h
    exact ⟨h1, h2, Nat.lt_of_lt_of_le h3 hc⟩
  · exact hS.nodup
  · exact hS.waitOp
  · exact hS.waitSel
  · exact hS.doneSel
  · exact hS.wokenSel
  · exact hS.wokenOp

/-- A running coroutine has no entries. -/
theorem no_entry {w : World V} (hS : S w) {co : Nat} (hr : w.cos co = .running) {d c l} (h : l ∈ w.q d c) : l.co ≠ co := by
  rintro rfl
  obtain ⟨h1 | ⟨_, cases, r, cs, h2, _⟩, _⟩ := hS.entry d c l h
  · rw [h1.2.2.1] at hr; simp at hr
  · rw [h2] at hr; simp at hr

/-- Parking: entries `news` are appended for the running coroutine `co`. -/
theorem S_park {w : World V} (hS : S w) {co : Nat} (hr : w.cos co = .running) (wt : Wait V) (news : Dir → Nat → List (Lnk V))
    (hco : ∀ d c l, l ∈ news d c → l.co = co ∧ l.arr = w.clock ∧ (d = .send → l.msg.isSome = true))
    (hshape : ∀ d c l, l ∈ news d c →
      (l.sel = false ∧ l.idx = 0 ∧ wt = .op d c ∧ l.bound = true) ∨
      (l.sel = true ∧ ∃ cases cs, wt = .select cases ∧ cases[l.idx]? = some cs ∧ cs.dir = d ∧ cs.ch = c ∧ cs.msg = l.msg ∧ cs.bound = l.bound))
    (hnd : ∀ d c, ((news d c).map fun l => (l.co, l.idx)).Nodup)
    (hop : ∀ d c, wt = .op d c → ∃ l, l ∈ news d c)
    (hsel : ∀ cases, wt = .select cases → ∀ (i : Nat) cs, cases[i]? = some cs → ∃ l ∈ news cs.dir cs.ch, l.idx = i) :
    S { w with q := fun d c => w.q d c ++ news d c, cos := upd w.cos co (.waiting wt none), clock := w.clock + 1 } := by
  have hold : ∀ d c l, l ∈ w.q d c → l.co ≠ co := fun d c l h => no_entry hS hr h
  have hdf : w.done co = false := by
    cases h : w.done co with
    | false => rfl
    | true =>
      obtain ⟨cases, r, h'⟩ := (hS.doneSel co).1 h
      rw [hr] at h'
      simp at h'
  constructor
  · intro d c l h
    simp only [List.mem_append] at h
    rcases h with h | h
    · have hne := hold d c l h
      obtain ⟨h1, h2, h3⟩ := hS.entry d c l h
      refine ⟨?_, h2, by simp only; omega⟩
      rcases h1 with ⟨a1, a2, a3, a4⟩ | ⟨a1, cases, r, cs, a2, a3⟩
      · exact Or.inl ⟨a1, a2, by simp only [upd_ne _ _ hne]; exact a3, a4⟩
      · exact Or.inr ⟨a1, cases, r, cs, by simp only [upd_ne _ _ hne]; exact a2, a3⟩
    · obtain ⟨h1, h2, h3⟩ := hco d c l h
      refine ⟨?_, h3, by simp only; omega⟩
      rcases hshape d c l h with ⟨a1, a2, a3, a4⟩ | ⟨a1, cases, cs, a2, a3, a4, a5, a6, a7⟩
      · exact Or.inl ⟨a1, a2, by simp only [h1, upd_same, a3], a4⟩
      · refine Or.inr ⟨a1, cases, none, cs, by simp only [h1, upd_same, a2], a3, a4, a5, a6, a7, ?_⟩
        rw [h1]; exact hdf
  · intro d c
    simp only [List.map_append]
    rw [List.nodup_append]
    refine ⟨hS.nodup d c, hnd d c, ?_⟩
    intro x hx y hy
    obtain ⟨l, hl, rfl⟩ := List.mem_map.1 hx
    obtain ⟨l', hl', rfl⟩ := List.mem_map.1 hy
    intro he
    have h1 := hold d c l hl
    have h2 := (hco d c l' hl').1
    simp only [Prod.mk.injEq] at he
    omega
  · intro co' d c h
    simp only at h
    by_cases hc : co' = co
    · subst hc
      rw [upd_same] at h
      injection h with h _
      obtain ⟨l, hl⟩ := hop d c h
      exact ⟨l, List.mem_append_right _ hl, (hco d c l hl).1⟩
    · rw [upd_ne _ _ hc] at h
      obtain ⟨l, h1, h2⟩ := hS.waitOp co' d c h
      exact ⟨l, List.mem_append_left _ h1, h2⟩
  · intro co' cases h i cs hcs
    simp only at h
    by_cases hc : co' = co
    · subst hc
      rw [upd_same] at h
      injection h with h _
      obtain ⟨l, hl, hi⟩ := hsel cases h i cs hcs
      exact ⟨l, List.mem_append_right _ hl, (hco _ _ l hl).1, hi⟩
    · rw [upd_ne _ _ hc] at h
      obtain ⟨l, h1, h2⟩ := hS.waitSel co' cases h i cs hcs
      exact ⟨l, List.mem_append_left _ h1, h2⟩
  · intro co'
    by_cases hc : co' = co
    · subst hc
      simp only [hdf, upd_same, Bool.false_eq_true, false_iff]
      rintro ⟨cases, r, h⟩
      injection h with _ h
      simp at h
    · simp only [upd_ne _ _ hc]
      exact hS.doneSel co'
  · intro co' cases r h
    simp only at h
    by_cases hc : co' = co
    · subst hc
      rw [upd_same] at h
      injection h with _ h
      simp at h
    · rw [upd_ne _ _ hc] at h
      obtain ⟨h1, h2⟩ := hS.wokenSel co' cases r h
      refine ⟨h1, fun d c l hl hl' => ?_⟩
      rcases List.mem_append.1 hl with hl | hl
      · exact h2 d c l hl hl'
      · exact absurd ((hco d c l hl).1.symm.trans hl').symm hc
  · intro co' d c r h
    simp only at h
    by_cases hc : co' = co
    · subst hc
      rw [upd_same] at h
      injection h with _ h
      simp at h
    · rw [upd_ne _ _ hc] at h
      exact hS.wokenOp co' d c r h

/-- A woken coroutine runs on, its entries having been removed. -/
theorem S_resume {w : World V} (hS : S w) {co : Nat} {wt : Wait V} {r : Wake V} (hw : w.cos co = .waiting wt (some r))
    (q' : Dir → Nat → List (Lnk V)) (done' : Nat → Bool) (hsub : ∀ d c, (q' d c).Sublist (w.q d c))
    (hgone : ∀ d c l, l ∈ q' d c → l.co ≠ co) (hkeep : ∀ d c l, l ∈ w.q d c → l.co ≠ co → l ∈ q' d c)
    (hd : done' co = false) (hd' : ∀ x, x ≠ co → done' x = w.done x) :
    S { w with q := q', done := done', cos := upd w.cos co .running } := by
  constructor
  · intro d c l h
    have hne := hgone d c l h
    obtain ⟨h1, h2, h3⟩ := hS.entry d c l ((hsub d c).subset h)
    refine ⟨?_, h2, h3⟩
    rcases h1 with ⟨a1, a2, a3, a4⟩ | ⟨a1, cases, r, cs, a2, a3, a4, a5, a6, a7, a8⟩
    · exact Or.inl ⟨a1, a2, by simp only [upd_ne _ _ hne]; exact a3, a4⟩
    · exact Or.inr ⟨a1, cases, r, cs, by simp only [upd_ne _ _ hne]; exact a2, a3, a4, a5, a6, a7, by simp only [hd' _ hne]; exact a8⟩
  · intro d c
    exact ((hsub d c).map _).nodup (hS.nodup d c)
  · intro co' d c h
    simp only at h
    by_cases hc : co' = co
    · subst hc; rw [upd_same] at h; simp at h
    · rw [upd_ne _ _ hc] at h
      obtain ⟨l, h1, h2⟩ := hS.waitOp co' d c h
      exact ⟨l, hkeep d c l h1 (by omega), h2⟩
  · intro co' cases h i cs hcs
    simp only at h
    by_cases hc : co' = co
    · subst hc; rw [upd_same] at h; simp at h
    · rw [upd_ne _ _ hc] at h
      obtain ⟨l, h1, h2, h3⟩ := hS.waitSel co' cases h i cs hcs
      exact ⟨l, hkeep _ _ l h1 (by omega), h2, h3⟩
  · intro co'
    by_cases hc : co' = co
    · subst hc; simp [hd, upd_same]
    · simp only [hd' _ hc, upd_ne _ _ hc]
      exact hS.doneSel co'
  · intro co' cases r h
    simp only at h
    by_cases hc : co' = co
    · subst hc; rw [upd_same] at h; simp at h
    · rw [upd_ne _ _ hc] at h
      obtain ⟨h1, h2⟩ := hS.wokenSel co' cases r h
      exact ⟨h1, fun d c l hl => h2 d c l ((hsub d c).subset hl)⟩
  · intro co' d c r h
    simp only at h
    by_cases hc : co' = co
    · subst hc; rw [upd_same] at h; simp at h
    · rw [upd_ne _ _ hc] at h
      exact hS.wokenOp co' d c r h

/-! ### enqueue and dequeue -/

/-- The entries pass 2 adds to one queue. -/
def news (co clock : Nat) (d : Dir) (c : Nat) : List (Case V) → Nat → List (Lnk V)
  | [], _ => []
  | cs :: rest, i =>
    if cs.dir = d ∧ cs.ch = c then ⟨co, true, i, cs.msg, cs.bound, clock⟩ :: news co clock d c rest (i + 1) else news co clock d c rest (i + 1)

theorem enqueue_eq (co clock : Nat) (q : Dir → Nat → List (Lnk V)) (cases : List (Case V)) (i : Nat) :
    enqueue co clock q cases i = fun d c => q d c ++ news co clock d c cases i := by
  induction cases generalizing q i with
  | nil => funext d c; simp [enqueue, news]
  | cons cs rest ih =>
    funext d c
    rw [enqueue, ih, news]
    by_cases h : cs.dir = d ∧ cs.ch = c
    · obtain ⟨rfl, rfl⟩ := h
      simp [updq_same]
    · simp only
      rw [updq_ne _ _ (fun h' => h ⟨h'.1.symm, h'.2.symm⟩), if_neg h]

theorem mem_news {co clock : Nat} {d : Dir} {c : Nat} {cases : List (Case V)} {i : Nat} {l : Lnk V} :
    l ∈ news co clock d c cases i ↔ ∃ (k : Nat) (cs : Case V), cases[k]? = some cs ∧ cs.dir = d ∧ cs.ch = c ∧ l = ⟨co, true, i + k, cs.msg, cs.bound, clock⟩ := by
  induction cases generalizing i with
  | nil => simp [news]
  | cons cs rest ih =>
    have step : (l ∈ news co clock d c rest (i + 1)) ↔ ∃ (k : Nat) (cs' : Case V), (cs :: rest)[k + 1]? = some cs' ∧ cs'.dir = d ∧ cs'.ch = c ∧
        l = ⟨co, true, i + (k + 1), cs'.msg, cs'.bound, clock⟩ := by
      rw [ih]
      simp only [List.getElem?_cons_succ, show ∀ k, i + 1 + k = i + (k + 1) by intro k; omega]
    rw [news]
    constructor
    · intro h
      by_cases hc : cs.dir = d ∧ cs.ch = c
      · rw [if_pos hc] at h
        rcases List.mem_cons.1 h with h | h
        · exact ⟨0, cs, rfl, hc.1, hc.2, h⟩
        · obtain ⟨k, cs', h⟩ := step.1 h
          exact ⟨k + 1, cs', h⟩
      · rw [if_neg hc] at h
        obtain ⟨k, cs', h⟩ := step.1 h
        exact ⟨k + 1, cs', h⟩
    · rintro ⟨k, cs', h1, h2, h3, h4⟩
      cases k with
      | zero =>
        have := Option.some.inj h1
        subst this
        rw [if_pos ⟨h2, h3⟩, h4]
        exact List.mem_cons_self
      | succ k =>
        have := step.2 ⟨k, cs', h1, h2, h3, h4⟩
        split
        · exact List.mem_cons_of_mem _ this
        · exact this

theorem nodup_news (co clock : Nat) (d : Dir) (c : Nat) (cases : List (Case V)) (i : Nat) :
    ((news co clock d c cases i).map fun l => (l.co, l.idx)).Nodup := by
  induction cases generalizing i with
  | nil => simp [news]
  | cons cs rest ih =>
    rw [news]
    split
    · rw [List.map_cons, List.nodup_cons]
      refine ⟨fun hm => ?_, ih (i + 1)⟩
      obtain ⟨l, hl, he⟩ := List.mem_map.1 hm
      obtain ⟨k, cs', _, _, _, rfl⟩ := mem_news.1 hl
      simp only [Prod.mk.injEq] at he
      omega
    · exact ih (i + 1)

theorem eraseP_spec (l : List (Lnk V)) (co i : Nat) (hnd : (l.map fun l => (l.co, l.idx)).Nodup) (x : Lnk V) :
    x ∈ (l.eraseP fun l => decide (l.co = co ∧ l.idx = i)) ↔ x ∈ l ∧ ¬ (x.co = co ∧ x.idx = i) := by
  induction l with
  | nil => simp
  | cons y l ih =>
    rw [List.map_cons, List.nodup_cons] at hnd
    by_cases hy : y.co = co ∧ y.idx = i
    · rw [List.eraseP_cons_of_pos (by simpa using hy)]
      have hno : ∀ z ∈ l, ¬ (z.co = co ∧ z.idx = i) := by
        intro z hz he
        exact hnd.1 (List.mem_map.2 ⟨z, hz, by rw [he.1, he.2, hy.1, hy.2]⟩)
      constructor
      · intro h; exact ⟨List.mem_cons_of_mem _ h, hno x h⟩
      · rintro ⟨h1, h2⟩
        rcases List.mem_cons.1 h1 with rfl | h1
        · exact absurd hy h2
        · exact h1
    · rw [List.eraseP_cons_of_neg (by simpa using hy), List.mem_cons, ih hnd.2, List.mem_cons]
      constructor
      · rintro (rfl | ⟨h1, h2⟩)
        · exact ⟨Or.inl rfl, hy⟩
        · exact ⟨Or.inr h1, h2⟩
      · rintro ⟨rfl | h1, h2⟩
        · exact Or.inl rfl
        · exact Or.inr ⟨h1, h2⟩

theorem dequeue_spec (co idx : Nat) (q : Dir → Nat → List (Lnk V)) (cases : List (Case V)) (i : Nat)
    (hnd : ∀ d c, ((q d c).map fun l => (l.co, l.idx)).Nodup)
    (hent : ∀ d c l, l ∈ q d c → l.co = co → l.idx ≠ idx ∧ ∃ (k : Nat) (cs : Case V), cases[k]? = some cs ∧ l.idx = i + k ∧ cs.dir = d ∧ cs.ch = c) :
    (∀ d c, (dequeue co idx q cases i d c).Sublist (q d c)) ∧ (∀ d c l, l ∈ dequeue co idx q cases i d c → l.co ≠ co) ∧
      (∀ d c l, l ∈ q d c → l.co ≠ co → l ∈ dequeue co idx q cases i d c) := by
  induction cases generalizing q i with
  | nil =>
    refine ⟨fun _ _ => .refl _, fun d c l h hc => ?_, fun _ _ _ h _ => h⟩
    obtain ⟨_, k, cs, h, _⟩ := hent d c l h hc
    simp at h
  | cons cs rest ih =>
    rw [dequeue]
    by_cases hi : i = idx
    · rw [if_pos hi]
      refine ih q (i + 1) hnd fun d c l h hc => ?_
      obtain ⟨h0, k, cs', h1, h2, h3, h4⟩ := hent d c l h hc
      cases k with
      | zero => omega
      | succ k => exact ⟨h0, k, cs', h1, by omega, h3, h4⟩
    · rw [if_neg hi]
      have hq' : ∀ d c, (updq q cs.dir cs.ch ((q cs.dir cs.ch).eraseP fun l => decide (l.co = co ∧ l.idx = i)) d c).Sublist (q d c) := by
        intro d c
        unfold updq
        split
        · rename_i he
          rw [he.1, he.2]
          exact List.eraseP_sublist
        · exact .refl _
      obtain ⟨a1, a2, a3⟩ := ih (updq q cs.dir cs.ch ((q cs.dir cs.ch).eraseP fun l => decide (l.co = co ∧ l.idx = i))) (i + 1)
        (fun d c => ((hq' d c).map _).nodup (hnd d c)) (by
          intro d c l h hc
          obtain ⟨h0, k, cs', h1, h2, h3, h4⟩ := hent d c l ((hq' d c).subset h) hc
          cases k with
          | zero =>
            have := Option.some.inj h1
            subst this
            subst h3 h4
            rw [updq_same, eraseP_spec _ _ _ (hnd _ _)] at h
            exact absurd ⟨hc, h2⟩ h.2
          | succ k => exact ⟨h0, k, cs', h1, by omega, h3, h4⟩)
      refine ⟨fun d c => (a1 d c).trans (hq' d c), a2, fun d c l h hc => a3 d c l ?_ hc⟩
      unfold updq
      split
      · rename_i he
        rw [eraseP_spec _ _ _ (hnd _ _), ← he.1, ← he.2]
        exact ⟨h, fun h' => hc h'.1⟩
      · exact h

end Nature.Chan
