import Verif.BufIo.Spec
namespace Nature.BufIo
variable {σ : Type}

theorem loggedW_eq (S : Sink σ) (s : σ × List Byte) (bs : List Byte) : (loggedW S).write s bs =
    match S.write s.1 bs with
    | (.wrote k, s') => (.wrote k, (s', s.2 ++ bs.take k))
    | (.fail k, s') => (.fail k, (s', s.2 ++ bs.take k)) := rfl

theorem loggedW_wrote {S : Sink σ} {s : σ × List Byte} {bs k s'} (e : (loggedW S).write s bs = (.wrote k, s')) :
    s'.2 = s.2 ++ bs.take k ∧ S.write s.1 bs = (.wrote k, s'.1) := by
  rw [loggedW_eq] at e
  cases hr : S.write s.1 bs with
  | mk o s1 =>
    rw [hr] at e
    cases o with
    | wrote j => cases e; exact ⟨rfl, rfl⟩
    | fail j => cases e

theorem loggedW_fail {S : Sink σ} {s : σ × List Byte} {bs k s'} (e : (loggedW S).write s bs = (.fail k, s')) :
    s'.2 = s.2 ++ bs.take k := by
  rw [loggedW_eq] at e
  cases hr : S.write s.1 bs with
  | mk o s1 =>
    rw [hr] at e
    cases o with
    | wrote j => cases e
    | fail j => cases e; rfl

/-- The bytes accepted and not yet passed on. -/
def pending (x : Writer σ) : List Byte := x.buf.take x.n

/-- No error so far: what was accepted is what was passed on and what is pending. -/
structure Good (x : Writer (σ × List Byte)) (acc : List Byte) : Prop where
  wf : WWF x
  err : x.err = false
  log : x.wr.2 ++ pending x = acc

/-- After an error: what was passed on is a beginning of what was given. -/
structure Bad (x : Writer (σ × List Byte)) (given : List Byte) : Prop where
  err : x.err = true
  log : x.wr.2 <+: given

theorem pending_length {x : Writer σ} (h : WWF x) : (pending x).length = x.n := by
  have := h.le
  rw [pending, List.length_take]; omega

theorem flushLoop_spec {S : Sink σ} (hS : S.Fair) : ∀ fuel {x : Writer (σ × List Byte)} {acc} {written : Nat}, WWF x →
    x.err = false → x.wr.2 ++ (pending x).drop written = acc → written ≤ x.n →
    ∃ o y, flushLoop (loggedW S) fuel written x = (o, y) ∧
      ((o = .ok () ∧ Good y acc ∧ y.n = 0 ∧ y.buf.length = x.buf.length) ∨ (o = .throw .other ∧ Bad y acc) ∨ o = .spin) := by
  intro fuel
  induction fuel with
  | zero =>
    intro x acc written h he hl hw
    rw [flushLoop]
    by_cases hlt : written < x.n
    · rw [if_pos hlt]; exact ⟨_, _, rfl, Or.inr (Or.inr rfl)⟩
    · rw [if_neg hlt]
      refine ⟨_, _, rfl, Or.inl ⟨rfl, ⟨⟨h.pos, Nat.zero_le _⟩, he, ?_⟩, rfl, rfl⟩⟩
      show x.wr.2 ++ x.buf.take 0 = acc
      rw [← hl, List.drop_eq_nil_of_le (by rw [pending_length h]; omega)]
      simp
  | succ i ih =>
    intro x acc written h he hl hw
    rw [flushLoop]
    by_cases hlt : written < x.n
    · rw [if_pos hlt]
      cases hr : (loggedW S).write x.wr ((x.buf.take x.n).drop written) with
      | mk o s =>
        cases o with
        | fail k =>
          refine ⟨_, _, rfl, Or.inr (Or.inl ⟨rfl, rfl, ?_⟩)⟩
          show s.2 <+: acc
          rw [loggedW_fail hr, ← hl]
          exact List.prefix_append_right_inj _ |>.2 (List.take_prefix ..)
        | wrote k =>
          obtain ⟨h1, h2⟩ := loggedW_wrote hr
          have hk := hS _ _ _ _ h2
          rw [List.length_drop, List.length_take, Nat.min_eq_left h.le] at hk
          refine ih (x := { x with wr := s }) (acc := acc) ⟨h.pos, h.le⟩ he ?_ (by show written + k ≤ x.n; omega)
          show s.2 ++ (pending x).drop (written + k) = acc
          rw [h1, ← hl, ← List.drop_drop, List.append_assoc]
          exact congrArg _ (List.take_append_drop ..)
    · rw [if_neg hlt]
      refine ⟨_, _, rfl, Or.inl ⟨rfl, ⟨⟨h.pos, Nat.zero_le _⟩, he, ?_⟩, rfl, rfl⟩⟩
      show x.wr.2 ++ x.buf.take 0 = acc
      rw [← hl, List.drop_eq_nil_of_le (by rw [pending_length h]; omega)]
      simp

theorem flush_good {S : Sink σ} (hS : S.Fair) (fuel : Nat) {x : Writer (σ × List Byte)} {acc} (G : Good x acc) :
    ∃ o y, flush (loggedW S) fuel x = (o, y) ∧
      ((o = .ok () ∧ Good y acc ∧ y.n = 0 ∧ y.buf.length = x.buf.length) ∨ (o = .throw .other ∧ Bad y acc) ∨ o = .spin) := by
  rw [flush, if_neg (by rw [G.err]; simp)]
  by_cases h0 : x.n = 0
  · rw [if_pos h0]; exact ⟨_, _, rfl, Or.inl ⟨rfl, G, h0, rfl⟩⟩
  · rw [if_neg h0]
    exact flushLoop_spec hS fuel G.wf G.err (by rw [List.drop_zero]; exact G.log) (Nat.zero_le _)

/-- The second half of a round of `write`. -/
theorem round {S : Sink σ} (hS : S.Fair) (ff : Nat) (bs acc : List Byte) (i total : Nat) (htot : total < bs.length)
    (ih : ∀ {x : Writer (σ × List Byte)} {total : Nat}, total ≤ bs.length → Good x (acc ++ bs.take total) →
      ∃ o y, writeLoop (loggedW S) ff bs i total x = (o, y) ∧
        ((o = .ok bs.length ∧ Good y (acc ++ bs)) ∨ (o = .throw .other ∧ Bad y (acc ++ bs)) ∨ o = .spin))
    {x : Writer (σ × List Byte)} (G : Good x (acc ++ bs.take total)) :
    ∃ o y, writeRound (loggedW S) bs (writeLoop (loggedW S) ff bs i) total x = (o, y) ∧
      ((o = .ok bs.length ∧ Good y (acc ++ bs)) ∨ (o = .throw .other ∧ Bad y (acc ++ bs)) ∨ o = .spin) := by
  have hle := G.wf.le
  rw [writeRound]
  by_cases hdir : bs.length - total ≥ x.buf.length ∧ x.n = 0
  · rw [if_pos hdir]
    have hlog : x.wr.2 = acc ++ bs.take total := by
      rw [← G.log, pending, hdir.2]; simp
    cases hr : (loggedW S).write x.wr (bs.drop total) with
    | mk o s =>
      cases o with
      | fail k =>
        refine ⟨_, _, rfl, Or.inr (Or.inl ⟨rfl, rfl, ?_⟩)⟩
        show s.2 <+: acc ++ bs
        rw [loggedW_fail hr, hlog, List.append_assoc]
        refine (List.prefix_append_right_inj _).2 ?_
        have : bs = bs.take total ++ bs.drop total := (List.take_append_drop ..).symm
        conv => rhs; rw [this]
        exact (List.prefix_append_right_inj _).2 (List.take_prefix ..)
      | wrote k =>
        obtain ⟨h1, h2⟩ := loggedW_wrote hr
        have hk := hS _ _ _ _ h2
        rw [List.length_drop] at hk
        refine ih (x := { x with wr := s }) (by omega) ⟨⟨G.wf.pos, G.wf.le⟩, G.err, ?_⟩
        show s.2 ++ x.buf.take x.n = _
        rw [h1, hlog, hdir.2, List.take_zero, List.append_nil, List.append_assoc, List.take_add]
  · rw [if_neg hdir]
    dsimp only
    generalize hc : min (bs.length - total) (available x) = c
    have hc1 : c ≤ bs.length - total := by omega
    have hc2 : x.n + c ≤ x.buf.length := by unfold available at hc; omega
    have hl : ((bs.drop total).take c).length = c := by rw [List.length_take, List.length_drop]; omega
    refine ih (by omega) ⟨⟨?_, ?_⟩, G.err, ?_⟩
    · show 0 < (x.buf.take x.n ++ (bs.drop total).take c ++ x.buf.drop (x.n + c)).length
      have := G.wf.pos
      simp only [List.length_append, List.length_take, List.length_drop]
      omega
    · show x.n + c ≤ (x.buf.take x.n ++ (bs.drop total).take c ++ x.buf.drop (x.n + c)).length
      simp only [List.length_append, List.length_take, List.length_drop]
      omega
    · show x.wr.2 ++ (x.buf.take x.n ++ (bs.drop total).take c ++ x.buf.drop (x.n + c)).take (x.n + c) = _
      rw [List.take_append_of_le_length (by simp only [List.length_append, List.length_take, hl]; omega),
        List.take_of_length_le (by simp only [List.length_append, List.length_take, List.length_drop]; omega),
        ← List.append_assoc]
      show x.wr.2 ++ pending x ++ _ = _
      rw [G.log, List.append_assoc, List.take_add]

theorem writeLoop_spec {S : Sink σ} (hS : S.Fair) (ff : Nat) (bs acc : List Byte) : ∀ fuel
    {x : Writer (σ × List Byte)} {total : Nat}, total ≤ bs.length → Good x (acc ++ bs.take total) →
    ∃ o y, writeLoop (loggedW S) ff bs fuel total x = (o, y) ∧
      ((o = .ok bs.length ∧ Good y (acc ++ bs)) ∨ (o = .throw .other ∧ Bad y (acc ++ bs)) ∨ o = .spin) := by
  intro fuel
  induction fuel with
  | zero =>
    intro x total ht G
    rw [writeLoop]
    by_cases hlt : total < bs.length
    · rw [if_pos hlt]; exact ⟨_, _, rfl, Or.inr (Or.inr rfl)⟩
    · rw [if_neg hlt]
      have : total = bs.length := by omega
      subst this
      rw [List.take_length] at G
      exact ⟨_, _, rfl, Or.inl ⟨rfl, G⟩⟩
  | succ i ih =>
    intro x total ht G
    rw [writeLoop]
    by_cases hlt : total < bs.length
    · rw [if_pos hlt]
      by_cases hav : available x = 0
      · rw [if_pos hav]
        obtain ⟨o, y, e, hc⟩ := flush_good hS ff G
        rw [e]
        rcases hc with ⟨rfl, G2, hn, hb⟩ | ⟨rfl, B⟩ | rfl
        · exact round hS ff bs acc i total hlt ih G2
        · refine ⟨_, _, rfl, Or.inr (Or.inl ⟨rfl, B.err, ?_⟩)⟩
          refine List.IsPrefix.trans B.log ?_
          refine (List.prefix_append_right_inj _).2 (List.take_prefix ..)
        · exact ⟨_, _, rfl, Or.inr (Or.inr rfl)⟩
      · rw [if_neg hav]
        exact round hS ff bs acc i total hlt ih G
    · rw [if_neg hlt]
      have : total = bs.length := by omega
      subst this
      rw [List.take_length] at G
      exact ⟨_, _, rfl, Or.inl ⟨rfl, G⟩⟩

theorem write_good {S : Sink σ} (hS : S.Fair) (ff fuel : Nat) {x : Writer (σ × List Byte)} {acc} (G : Good x acc)
    (bs : List Byte) :
    ∃ o y, write (loggedW S) ff fuel x bs = (o, y) ∧
      ((o = .ok bs.length ∧ Good y (acc ++ bs)) ∨ (o = .throw .other ∧ Bad y (acc ++ bs)) ∨ o = .spin) := by
  rw [write, if_neg (by rw [G.err]; simp)]
  exact writeLoop_spec hS ff bs acc fuel (Nat.zero_le _) (by simpa using G)

theorem put_byte {x : Writer (σ × List Byte)} {acc} (G : Good x acc) (b : Byte) (hn : x.n < x.buf.length) :
    Good { x with buf := x.buf.set x.n b, n := x.n + 1 } (acc ++ [b]) := by
  refine ⟨⟨by show 0 < (x.buf.set x.n b).length; rw [List.length_set]; exact G.wf.pos,
    by show x.n + 1 ≤ (x.buf.set x.n b).length; rw [List.length_set]; omega⟩, G.err, ?_⟩
  show x.wr.2 ++ (x.buf.set x.n b).take (x.n + 1) = _
  rw [List.take_add_one, List.getElem?_set_self (by omega), List.take_set_of_le (Nat.le_refl _)]
  show x.wr.2 ++ (pending x ++ [b]) = _
  rw [← List.append_assoc, G.log]

theorem writeByte_good {S : Sink σ} (hS : S.Fair) (ff : Nat) {x : Writer (σ × List Byte)} {acc} (G : Good x acc) (b : Byte) :
    ∃ o y, writeByte (loggedW S) ff x b = (o, y) ∧
      ((o = .ok () ∧ Good y (acc ++ [b])) ∨ (o = .throw .other ∧ Bad y (acc ++ [b])) ∨ o = .spin) := by
  rw [writeByte]
  dsimp only
  rw [if_neg (by rw [G.err]; simp)]
  have hle := G.wf.le
  by_cases hav : available x = 0
  · rw [if_pos hav]
    obtain ⟨o, y, e, hc⟩ := flush_good hS ff G
    rw [e]
    rcases hc with ⟨rfl, G2, hn, hb⟩ | ⟨rfl, B⟩ | rfl
    · have hlt : y.n < y.buf.length := by rw [hn]; exact G2.wf.pos
      exact ⟨_, _, by dsimp only; rw [if_pos hlt], Or.inl ⟨rfl, put_byte G2 b hlt⟩⟩
    · exact ⟨_, _, rfl, Or.inr (Or.inl ⟨rfl, B.err, B.log.trans (List.prefix_append ..)⟩)⟩
    · exact ⟨_, _, rfl, Or.inr (Or.inr rfl)⟩
  · rw [if_neg hav]
    have hlt : x.n < x.buf.length := by unfold available at hav; omega
    exact ⟨_, _, by rw [if_pos hlt], Or.inl ⟨rfl, put_byte G b hlt⟩⟩

/-! ### Enough fuel -/

theorem flushLoop_ends {S : Sink σ} (hF : S.Fair) (hM : S.Moves) : ∀ fuel {x : Writer σ} {written : Nat}, WWF x →
    x.n - written ≤ fuel → (flushLoop S fuel written x).1 ≠ .spin := by
  intro fuel
  induction fuel with
  | zero =>
    intro x written h hf
    rw [flushLoop, if_neg (by omega)]; simp
  | succ i ih =>
    intro x written h hf
    rw [flushLoop]
    by_cases hlt : written < x.n
    · rw [if_pos hlt]
      have hne : (x.buf.take x.n).drop written ≠ [] := by
        intro h0
        have hle := h.le
        have := congrArg List.length h0
        rw [List.length_drop, List.length_take, List.length_nil] at this
        omega
      cases hr : S.write x.wr ((x.buf.take x.n).drop written) with
      | mk o s =>
        cases o with
        | fail k => simp
        | wrote k =>
          have := hM _ _ _ _ hne hr
          exact ih (x := { x with wr := s }) ⟨h.pos, h.le⟩ (by show x.n - (written + k) ≤ i; omega)
    · rw [if_neg hlt]; simp

theorem flush_ends {S : Sink σ} (hF : S.Fair) (hM : S.Moves) {fuel : Nat} {x : Writer σ} (h : WWF x)
    (hf : x.buf.length ≤ fuel) : (flush S fuel x).1 ≠ .spin := by
  rw [flush]
  split
  · simp
  · split
    · simp
    · exact flushLoop_ends hF hM fuel h (by have := h.le; omega)

theorem flushLoop_shape {S : Sink σ} : ∀ fuel {x : Writer σ} {written : Nat} {o y}, flushLoop S fuel written x = (o, y) →
    y.buf = x.buf ∧ (o = .ok () → y.n = 0) := by
  intro fuel
  induction fuel with
  | zero =>
    intro x written o y e
    rw [flushLoop] at e
    split at e <;> cases e
    · exact ⟨rfl, by simp⟩
    · exact ⟨rfl, by simp⟩
  | succ i ih =>
    intro x written o y e
    rw [flushLoop] at e
    split at e
    · split at e
      · cases e; exact ⟨rfl, by simp⟩
      · have := ih e; exact ⟨this.1, this.2⟩
    · cases e; exact ⟨rfl, by simp⟩

theorem flush_shape {S : Sink σ} {fuel : Nat} {x : Writer σ} {o y} (e : flush S fuel x = (o, y)) :
    y.buf = x.buf ∧ (o = .ok () → y.n = 0) := by
  rw [flush] at e
  split at e
  · cases e; exact ⟨rfl, by simp⟩
  · split at e
    · rename_i h0; cases e; exact ⟨rfl, fun _ => h0⟩
    · exact flushLoop_shape fuel e

theorem writeLoop_ends {S : Sink σ} (hF : S.Fair) (hM : S.Moves) {ff : Nat} (bs : List Byte) : ∀ fuel {x : Writer σ}
    {total : Nat}, WWF x → x.buf.length ≤ ff → bs.length - total ≤ fuel →
    (writeLoop S ff bs fuel total x).1 ≠ .spin := by
  intro fuel
  induction fuel with
  | zero =>
    intro x total h _ hf
    rw [writeLoop, if_neg (by omega)]; simp
  | succ i ih =>
    intro x total h hff hf
    rw [writeLoop]
    by_cases hlt : total < bs.length
    · rw [if_pos hlt]
      have go : ∀ {x : Writer σ}, WWF x → x.buf.length ≤ ff → available x ≠ 0 →
          (writeRound S bs (writeLoop S ff bs i) total x).1 ≠ .spin := by
        intro x h hff hav
        rw [writeRound]
        by_cases hdir : bs.length - total ≥ x.buf.length ∧ x.n = 0
        · rw [if_pos hdir]
          have hne : bs.drop total ≠ [] := by
            intro h0
            have := congrArg List.length h0
            simp only [List.length_drop, List.length_nil] at this
            omega
          cases hr : S.write x.wr (bs.drop total) with
          | mk o s =>
            cases o with
            | fail k => simp
            | wrote k =>
              have := hM _ _ _ _ hne hr
              exact ih (x := { x with wr := s }) ⟨h.pos, h.le⟩ hff (by omega)
        · rw [if_neg hdir]
          dsimp only
          generalize hc : min (bs.length - total) (available x) = c
          have hc1 : c ≤ bs.length - total := by omega
          have hc0 : 0 < c := by omega
          have hc2 : x.n + c ≤ x.buf.length := by unfold available at hc; omega
          have hl : (x.buf.take x.n ++ (bs.drop total).take c ++ x.buf.drop (x.n + c)).length = x.buf.length := by
            simp only [List.length_append, List.length_take, List.length_drop]; omega
          refine ih ⟨?_, ?_⟩ ?_ (by omega)
          · show 0 < (x.buf.take x.n ++ (bs.drop total).take c ++ x.buf.drop (x.n + c)).length
            rw [hl]; exact h.pos
          · show x.n + c ≤ (x.buf.take x.n ++ (bs.drop total).take c ++ x.buf.drop (x.n + c)).length
            rw [hl]; exact hc2
          · show (x.buf.take x.n ++ (bs.drop total).take c ++ x.buf.drop (x.n + c)).length ≤ ff
            rw [hl]; exact hff
      by_cases hav : available x = 0
      · rw [if_pos hav]
        cases hfl : flush S ff x with
        | mk o y =>
          have hsh := flush_shape hfl
          have hns := flush_ends hF hM h hff
          rw [hfl] at hns
          cases o with
          | ok u =>
            have hn := hsh.2 rfl
            refine go ⟨by rw [hsh.1]; exact h.pos, by rw [hn]; exact Nat.zero_le _⟩ (by rw [hsh.1]; exact hff) ?_
            rw [available, hn, hsh.1]
            have := h.pos
            omega
          | throw e => simp
          | panic => simp
          | spin => exact absurd rfl hns
      · rw [if_neg hav]
        exact go h hff hav
    · rw [if_neg hlt]; simp

theorem write_ends {S : Sink σ} (hF : S.Fair) (hM : S.Moves) {ff fuel : Nat} {x : Writer σ} (h : WWF x)
    (hff : x.buf.length ≤ ff) (bs : List Byte) (hf : bs.length ≤ fuel) : (write S ff fuel x bs).1 ≠ .spin := by
  rw [write]
  split
  · simp
  · exact writeLoop_ends hF hM bs fuel h hff (by omega)

theorem writeByte_ends {S : Sink σ} (hF : S.Fair) (hM : S.Moves) {ff : Nat} {x : Writer σ} (h : WWF x)
    (hff : x.buf.length ≤ ff) (b : Byte) : (writeByte S ff x b).1 ≠ .spin := by
  rw [writeByte]
  dsimp only
  split
  · simp
  · split
    · have := flush_ends hF hM h hff
      cases hfl : flush S ff x with
      | mk o y =>
        rw [hfl] at this
        cases o with
        | ok u => dsimp only; split <;> simp
        | throw e => simp
        | panic => simp
        | spin => exact absurd rfl this
    · split <;> simp

/-- After an error every call throws and changes nothing. -/
theorem bad_call {S : Sink σ} {op : WOp} {x y : Writer σ} {b : Bool} (hx : x.err = true) (c : WCall S op x b y) :
    b = false ∧ y = x := by
  cases c with
  | write bs ff fuel _ k _ e => rw [write, if_pos hx] at e; cases e
  | writeThrow bs ff fuel _ k _ e => rw [write, if_pos hx] at e; cases e; exact ⟨rfl, rfl⟩
  | byte b ff _ _ e => rw [writeByte] at e; dsimp only at e; rw [if_pos hx] at e; cases e
  | byteThrow b ff _ _ _ e => rw [writeByte] at e; dsimp only at e; rw [if_pos hx] at e; cases e; exact ⟨rfl, rfl⟩
  | flush ff _ _ e => rw [flush, if_pos hx] at e; cases e
  | flushThrow ff _ _ _ e => rw [flush, if_pos hx] at e; cases e; exact ⟨rfl, rfl⟩

theorem good_call {S : Sink σ} (hS : S.Fair) {op : WOp} {x y : Writer (σ × List Byte)} {b : Bool} {acc}
    (G : Good x acc) (c : WCall (loggedW S) op x b y) :
    (b = true ∧ Good y (acc ++ op.bytes) ∧ (op = .flush → y.n = 0)) ∨ (b = false ∧ Bad y (acc ++ op.bytes)) := by
  cases c with
  | write bs ff fuel _ k _ e =>
    obtain ⟨o, z, e2, hc⟩ := write_good hS ff fuel G bs
    rw [e] at e2
    cases e2
    rcases hc with ⟨_, g⟩ | ⟨h, _⟩ | h
    · exact Or.inl ⟨rfl, g, by simp⟩
    · cases h
    · cases h
  | writeThrow bs ff fuel _ k _ e =>
    obtain ⟨o, z, e2, hc⟩ := write_good hS ff fuel G bs
    rw [e] at e2
    cases e2
    rcases hc with ⟨h, _⟩ | ⟨_, g⟩ | h
    · cases h
    · exact Or.inr ⟨rfl, g⟩
    · cases h
  | byte b ff _ _ e =>
    obtain ⟨o, z, e2, hc⟩ := writeByte_good hS ff G b
    rw [e] at e2
    cases e2
    rcases hc with ⟨_, g⟩ | ⟨h, _⟩ | h
    · exact Or.inl ⟨rfl, g, by simp⟩
    · cases h
    · cases h
  | byteThrow b ff _ _ _ e =>
    obtain ⟨o, z, e2, hc⟩ := writeByte_good hS ff G b
    rw [e] at e2
    cases e2
    rcases hc with ⟨h, _⟩ | ⟨_, g⟩ | h
    · cases h
    · exact Or.inr ⟨rfl, g⟩
    · cases h
  | flush ff _ _ e =>
    obtain ⟨o, z, e2, hc⟩ := flush_good hS ff G
    rw [e] at e2
    cases e2
    rcases hc with ⟨_, g, h0, _⟩ | ⟨h, _⟩ | h
    · exact Or.inl ⟨rfl, by simpa [WOp.bytes] using g, fun _ => h0⟩
    · cases h
    · cases h
  | flushThrow ff _ _ _ e =>
    obtain ⟨o, z, e2, hc⟩ := flush_good hS ff G
    rw [e] at e2
    cases e2
    rcases hc with ⟨h, _⟩ | ⟨_, g⟩ | h
    · cases h
    · exact Or.inr ⟨rfl, by simpa [WOp.bytes] using g⟩
    · cases h

theorem bad_calls {S : Sink σ} {ops : List WOp} {x z : Writer σ} {rs : List Bool} (hx : x.err = true)
    (c : WCalls S ops x rs z) : rs = List.replicate ops.length false ∧ z = x := by
  induction c with
  | nil => exact ⟨rfl, rfl⟩
  | cons op ops x y b rs z h _ ih =>
    obtain ⟨rfl, rfl⟩ := bad_call hx h
    obtain ⟨h1, h2⟩ := ih hx
    exact ⟨by rw [h1]; rfl, h2⟩

theorem good_calls {S : Sink σ} (hS : S.Fair) {ops : List WOp} {x z : Writer (σ × List Byte)} {rs : List Bool} {acc}
    (G : Good x acc) (c : WCalls (loggedW S) ops x rs z) :
    (rs = List.replicate ops.length true ∧ Good z (acc ++ ops.flatMap WOp.bytes)) ∨
      (∃ pre op post, ops = pre ++ op :: post ∧
        rs = List.replicate pre.length true ++ false :: List.replicate post.length false ∧
        Bad z (acc ++ pre.flatMap WOp.bytes ++ op.bytes)) := by
  induction c generalizing acc with
  | nil => exact Or.inl ⟨rfl, by simpa using G⟩
  | cons op ops x y b rs z h hc ih =>
    rcases good_call hS G h with ⟨rfl, g, _⟩ | ⟨rfl, g⟩
    · rcases ih g with ⟨h1, h2⟩ | ⟨pre, o2, post, h1, h2, h3⟩
      · exact Or.inl ⟨by rw [h1]; rfl, by simpa [List.append_assoc] using h2⟩
      · exact Or.inr ⟨op :: pre, o2, post, by rw [h1]; rfl, by rw [h2]; rfl, by simpa [List.append_assoc] using h3⟩
    · obtain ⟨h1, rfl⟩ := bad_calls g.err hc
      exact Or.inr ⟨[], op, ops, rfl, by rw [h1]; rfl, by simpa using g⟩

end Nature.BufIo
