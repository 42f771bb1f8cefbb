import Verif.BufIo.Spec
namespace Nature.BufIo
variable {σ : Type}

theorem unread_eq (x : Reader σ) : unread x = (x.buf.drop x.r).take (x.w - x.r) := by
  rw [unread, List.drop_take]

theorem unread_length {x : Reader σ} (h : WF x) : (unread x).length = x.w - x.r := by
  have := h.wl
  rw [unread, List.length_drop, List.length_take]
  omega

/-- The buffer after a read into `buf[w..]`. -/
theorem put_length {buf bs : List Byte} {w : Nat} (h : w + bs.length ≤ buf.length) :
    (buf.take w ++ bs ++ buf.drop (w + bs.length)).length = buf.length := by
  simp only [List.length_append, List.length_take, List.length_drop]
  omega

theorem put_take {buf bs : List Byte} {w : Nat} (h : w + bs.length ≤ buf.length) :
    (buf.take w ++ bs ++ buf.drop (w + bs.length)).take (w + bs.length) = buf.take w ++ bs := by
  rw [List.take_append_of_le_length (by simp only [List.length_append, List.length_take]; omega)]
  exact List.take_of_length_le (by simp only [List.length_append, List.length_take]; omega)

theorem put_nil {buf : List Byte} {w : Nat} : buf.take w ++ [] ++ buf.drop (w + ([] : List Byte).length) = buf := by
  simp

/-- The compaction. -/
def compact (x : Reader σ) : Reader σ :=
  if x.r > 0 then
      { x with buf := copyTo x.buf ((x.buf.take x.w).drop x.r), w := x.w - x.r, r := 0 }
    else x

theorem compact_spec {x : Reader σ} (h : WF x) : WF (compact x) ∧ unread (compact x) = unread x ∧
    (compact x).buf.length = x.buf.length ∧ (compact x).rd = x.rd ∧ (compact x).eof = x.eof ∧
    (compact x).w = x.w - x.r ∧ (compact x).r = 0 := by
  have hl := unread_length h
  have h1 := h.pos
  have h2 := h.rw
  have h3 := h.wl
  by_cases hr : x.r > 0
  · have e : compact x = { x with buf := copyTo x.buf (unread x), w := x.w - x.r, r := 0 } := by
      rw [compact, if_pos hr]; rfl
    have ec : copyTo x.buf (unread x) = unread x ++ x.buf.drop (x.w - x.r) := by
      rw [copyTo, List.take_of_length_le (by omega), hl]
    rw [e, ec]
    have hlen : (unread x ++ x.buf.drop (x.w - x.r)).length = x.buf.length := by
      rw [List.length_append, List.length_drop, hl]; omega
    refine ⟨⟨?_, ?_, ?_⟩, ?_, hlen, rfl, rfl, rfl, rfl⟩
    · show 0 < (unread x ++ x.buf.drop (x.w - x.r)).length
      omega
    · exact Nat.zero_le _
    · show x.w - x.r ≤ (unread x ++ x.buf.drop (x.w - x.r)).length
      omega
    · show ((unread x ++ x.buf.drop (x.w - x.r)).take (x.w - x.r)).drop 0 = _
      rw [List.drop_zero, List.take_append_of_le_length (by omega), List.take_of_length_le (by omega)]
  · have h0 : x.r = 0 := by omega
    have e : compact x = x := by rw [compact, if_neg hr]
    rw [e]
    exact ⟨h, rfl, rfl, rfl, rfl, by omega, h0⟩

theorem fill_eq (S : Src σ) (x : Reader σ) :
    fill S x = if (compact x).w ≥ (compact x).buf.length then (.panic, compact x) else fillLoop S 100 (compact x) := rfl

/-- One read into the tail of the buffer. -/
def tailPut (x : Reader σ) (s : σ) (bs : List Byte) : Reader σ :=
  { x with rd := s, buf := x.buf.take x.w ++ bs ++ x.buf.drop (x.w + bs.length), w := x.w + bs.length }

theorem grown {x : Reader σ} (h : WF x) (bs : List Byte) (hb : x.w + bs.length ≤ x.buf.length) (s : σ) :
    WF (tailPut x s bs) ∧ unread (tailPut x s bs) = unread x ++ bs ∧ (tailPut x s bs).buf.length = x.buf.length ∧
      (tailPut x s bs).rd = s ∧ (tailPut x s bs).eof = x.eof ∧ (tailPut x s bs).r = x.r ∧
      (tailPut x s bs).w = x.w + bs.length := by
  have h1 := h.pos
  have h2 := h.rw
  have h3 := h.wl
  have hl := put_length hb
  refine ⟨⟨?_, ?_, ?_⟩, ?_, hl, rfl, rfl, rfl, rfl⟩
  · show 0 < (x.buf.take x.w ++ bs ++ x.buf.drop (x.w + bs.length)).length
    omega
  · show x.r ≤ x.w + bs.length
    omega
  · show x.w + bs.length ≤ (x.buf.take x.w ++ bs ++ x.buf.drop (x.w + bs.length)).length
    omega
  · show ((x.buf.take x.w ++ bs ++ x.buf.drop (x.w + bs.length)).take (x.w + bs.length)).drop x.r = _
    rw [put_take hb, List.drop_append_of_le_length (by rw [List.length_take]; omega)]
    rfl

theorem logged_eq (S : Src σ) (s : σ × List Byte) (n : Nat) : (logged S).read s n =
    match S.read s.1 n with
    | (.data bs, s') => (.data bs, (s', s.2 ++ bs))
    | (o, s') => (o, (s', s.2)) := rfl

theorem logged_fair {S : Src σ} (h : S.Fair) : (logged S).Fair := by
  intro s n bs s' e
  rw [logged_eq] at e
  cases hr : S.read s.1 n with
  | mk o s1 =>
    rw [hr] at e
    cases o with
    | data c => cases e; exact h _ _ _ _ hr
    | eof => cases e
    | fail => cases e

/-- The log grows by what is read. -/
theorem logged_data {S : Src σ} {s : σ × List Byte} {n bs s'} (e : (logged S).read s n = (.data bs, s')) :
    s'.2 = s.2 ++ bs := by
  rw [logged_eq] at e
  cases hr : S.read s.1 n with
  | mk o s1 =>
    rw [hr] at e
    cases o with
    | data c => cases e; rfl
    | eof => cases e
    | fail => cases e

theorem logged_stop {S : Src σ} {s : σ × List Byte} {n o s'} (e : (logged S).read s n = (o, s'))
    (ho : ∀ bs, o ≠ .data bs) : s'.2 = s.2 := by
  rw [logged_eq] at e
  cases hr : S.read s.1 n with
  | mk o s1 =>
    rw [hr] at e
    cases o with
    | data c => cases e; exact absurd rfl (ho _)
    | eof => cases e; rfl
    | fail => cases e; rfl

/-- What one call does to the bytes: `bs` are given out. -/
structure Step (x y : Reader (σ × List Byte)) (bs : List Byte) : Prop where
  wf : WF y
  len : y.buf.length = x.buf.length
  log : ∀ d, x.rd.2 = d ++ unread x → y.rd.2 = d ++ bs ++ unread y

theorem Step.trans {x y z : Reader (σ × List Byte)} {a b : List Byte} (h : Step x y a) (h' : Step y z b) :
    Step x z (a ++ b) :=
  ⟨h'.wf, h'.len.trans h.len, fun d hd => by rw [h'.log (d ++ a) (h.log d hd)]; simp only [List.append_assoc]⟩

theorem Step.refl {x : Reader (σ × List Byte)} (h : WF x) : Step x x [] :=
  ⟨h, rfl, fun d hd => by rw [hd, List.append_nil]⟩

/-- Only the underlying state and flags change, no bytes read. -/
theorem Step.quiet {x y : Reader (σ × List Byte)} (h : WF x) (hb : y.buf = x.buf) (hr : y.r = x.r) (hw : y.w = x.w)
    (hl : y.rd.2 = x.rd.2) : Step x y [] := by
  have hu : unread y = unread x := by rw [unread, unread, hb, hr, hw]
  exact ⟨⟨by rw [hb]; exact h.pos, by rw [hr, hw]; exact h.rw, by rw [hb, hw]; exact h.wl⟩, by rw [hb],
    fun d hd => by rw [hl, hd, hu, List.append_nil]⟩

/-- The retry loop of fill, on a logged source. -/
theorem fillLoop_step {S : Src σ} (hS : S.Fair) : ∀ n {x : Reader (σ × List Byte)}, WF x → x.w < x.buf.length →
    ∃ o y, fillLoop (logged S) n x = (o, y) ∧ Step x y [] ∧
      ((o = .ok () ∧ ∃ c, c ≠ [] ∧ unread y = unread x ++ c ∧ y.r = x.r) ∨ ((∃ e, o = .throw e) ∧ unread y = unread x)) := by
  intro n
  induction n with
  | zero => intro x h _; exact ⟨_, x, rfl, Step.refl h, Or.inr ⟨⟨_, rfl⟩, rfl⟩⟩
  | succ n ih =>
    intro x h hw
    rw [fillLoop]
    cases hr : (logged S).read x.rd (x.buf.length - x.w) with
    | mk o s =>
      cases o with
      | eof => exact ⟨_, _, rfl, Step.quiet h rfl rfl rfl (logged_stop hr fun _ => by simp), Or.inr ⟨⟨_, rfl⟩, rfl⟩⟩
      | fail => exact ⟨_, _, rfl, Step.quiet h rfl rfl rfl (logged_stop hr fun _ => by simp), Or.inr ⟨⟨_, rfl⟩, rfl⟩⟩
      | data bs =>
        have hlen := logged_fair hS _ _ _ _ hr
        have hlog := logged_data hr
        show ∃ o y, (if bs.length > 0 then (Out.ok (), tailPut x s bs) else fillLoop (logged S) n (tailPut x s bs)) = (o, y) ∧ _
        obtain ⟨g1, g2, g3, g4, g5, g6, g7⟩ := grown h bs (by omega) s
        have hst : Step x (tailPut x s bs) [] := by
          refine ⟨g1, g3, fun d hd => ?_⟩
          rw [g4, g2, hlog, hd]
          simp
        by_cases hb : bs.length > 0
        · refine ⟨.ok (), _, ?_, hst, Or.inl ⟨rfl, bs, ?_, g2, g6⟩⟩
          · rw [if_pos hb]
          · rintro rfl; simp at hb
        · have hb0 : bs = [] := List.length_eq_zero_iff.1 (by omega)
          subst hb0
          obtain ⟨o, y, e, st, hc⟩ := ih g1 (by rw [g7, g3]; exact hw)
          refine ⟨o, y, ?_, hst.trans st, ?_⟩
          · rw [if_neg hb]
            exact e
          · rw [g2, List.append_nil, g6] at hc
            exact hc

theorem fill_step {S : Src σ} (hS : S.Fair) {x : Reader (σ × List Byte)} (h : WF x) (hw : (unread x).length < x.buf.length) :
    ∃ o y, fill (logged S) x = (o, y) ∧ Step x y [] ∧
      ((o = .ok () ∧ ∃ c, c ≠ [] ∧ unread y = unread x ++ c ∧ y.r = 0) ∨ ((∃ e, o = .throw e) ∧ unread y = unread x)) := by
  obtain ⟨c1, c2, c3, c4, c5, c6, c7⟩ := compact_spec h
  have hl := unread_length h
  obtain ⟨o, y, e, st, hc⟩ := fillLoop_step hS 100 c1 (by rw [c6, c3]; omega)
  refine ⟨o, y, ?_, ⟨st.wf, st.len.trans c3, fun d hd => st.log d (by rw [c2, c4]; exact hd)⟩, ?_⟩
  · rw [fill_eq, if_neg (by rw [c6, c3]; omega)]
    exact e
  · rw [c2, c7] at hc; exact hc

/-! ### Scanning -/

theorem scan_spec {buf : List Byte} {d : Byte} : ∀ n j, j + n ≤ buf.length →
    (∀ k, scan buf d j n = some k → ∃ pre post, (buf.drop j).take n = pre ++ d :: post ∧ d ∉ pre ∧ k = j + pre.length) ∧
      (scan buf d j n = none → d ∉ (buf.drop j).take n) := by
  intro n
  induction n with
  | zero => intro j _; simp [scan]
  | succ n ih =>
    intro j hj
    have hlt : j < buf.length := by omega
    have hd : (buf.drop j).take (n + 1) = buf[j] :: (buf.drop (j + 1)).take n := by
      rw [List.drop_eq_getElem_cons hlt, List.take_succ_cons]
    obtain ⟨ih1, ih2⟩ := ih (j + 1) (by omega)
    rw [hd, scan, List.getElem?_eq_getElem hlt]
    by_cases hb : buf[j] = d
    · rw [if_pos (by rw [hb])]
      refine ⟨?_, by simp⟩
      intro k hk
      obtain rfl := Option.some.inj hk
      exact ⟨[], (buf.drop (j + 1)).take n, by rw [hb]; rfl, by simp, rfl⟩
    · rw [if_neg (by simpa using hb)]
      refine ⟨?_, ?_⟩
      · intro k hk
        obtain ⟨pre, post, e1, e2, e3⟩ := ih1 k hk
        refine ⟨buf[j] :: pre, post, by rw [e1]; rfl, ?_, by rw [e3, List.length_cons]; omega⟩
        intro hm
        rcases List.mem_cons.1 hm with h | h
        · exact hb h.symm
        · exact e2 h
      · intro hn hm
        rcases List.mem_cons.1 hm with h | h
        · exact hb h.symm
        · exact ih2 hn h

theorem scan_unread {x : Reader σ} (h : WF x) {d : Byte} :
    (∀ k, scan x.buf d x.r (x.w - x.r) = some k → ∃ pre post, unread x = pre ++ d :: post ∧ d ∉ pre ∧ k = x.r + pre.length) ∧
      (scan x.buf d x.r (x.w - x.r) = none → d ∉ unread x) := by
  have h1 := h.rw
  have h2 := h.wl
  rw [unread_eq]
  exact scan_spec _ _ (by omega)

/-- The slice found by the scan, and the reader after it. -/
theorem found {x : Reader σ} (h : WF x) {d : Byte} {pre post : List Byte} (hu : unread x = pre ++ d :: post) :
    WF { x with r := x.r + pre.length + 1 } ∧ view { x with r := x.r + pre.length + 1 } (x.r, x.r + pre.length + 1) = pre ++ [d] ∧
      unread { x with r := x.r + pre.length + 1 } = post := by
  have h1 := h.rw
  have h2 := h.wl
  have hl := unread_length h
  rw [hu, List.length_append, List.length_cons] at hl
  have hu2 := hu
  rw [unread_eq] at hu2
  refine ⟨⟨h.pos, ?_, h2⟩, ?_, ?_⟩
  · show x.r + pre.length + 1 ≤ x.w
    omega
  · show (x.buf.take (x.r + pre.length + 1)).drop x.r = _
    rw [List.drop_take]
    have : x.r + pre.length + 1 - x.r = pre.length + 1 := by omega
    rw [this]
    have e : (x.buf.drop x.r).take (pre.length + 1) = ((x.buf.drop x.r).take (x.w - x.r)).take (pre.length + 1) := by
      rw [List.take_take]; congr 1; omega
    rw [e, hu2]
    have e2 : pre ++ d :: post = (pre ++ [d]) ++ post := by simp
    rw [e2, List.take_append_of_le_length (by simp)]
    exact List.take_of_length_le (by simp)
  · show (x.buf.take x.w).drop (x.r + pre.length + 1) = _
    have : x.r + pre.length + 1 = x.r + (pre.length + 1) := by omega
    rw [this, ← List.drop_drop]
    show (unread x).drop (pre.length + 1) = post
    rw [hu]
    simp

theorem drained {x : Reader σ} (h : WF x) : WF { x with r := x.w } ∧ unread { x with r := x.w } = [] := by
  refine ⟨⟨h.pos, Nat.le_refl _, h.wl⟩, ?_⟩
  show (x.buf.take x.w).drop x.w = []
  exact List.drop_eq_nil_of_le (by rw [List.length_take]; omega)

theorem view_all {x : Reader σ} : view { x with r := x.w } (x.r, x.w) = unread x := rfl

/-- A full buffer is all unread. -/
theorem full_view {x : Reader σ} (h : WF x) (hf : buffered x ≥ x.buf.length) :
    view { x with r := x.w } (0, x.buf.length) = unread x ∧ (unread x).length = x.buf.length := by
  have h1 := h.rw
  have h2 := h.wl
  have hl := unread_length h
  have h0 := h.pos
  unfold buffered at hf
  have hr : x.r = 0 := by omega
  have hw : x.w = x.buf.length := by omega
  refine ⟨?_, by omega⟩
  show (x.buf.take x.buf.length).drop 0 = (x.buf.take x.w).drop x.r
  rw [hr, hw]

/-- Giving out a prefix of the unread bytes. -/
theorem advance {x : Reader (σ × List Byte)} (h : WF x) (y : Reader (σ × List Byte)) (a : List Byte)
    (hwf : WF y) (hb : y.buf.length = x.buf.length) (hl : y.rd.2 = x.rd.2) (hu : unread x = a ++ unread y) : Step x y a :=
  ⟨hwf, hb, fun d hd => by rw [hl, hd, hu, List.append_assoc]⟩

theorem untilLoop_step {S : Src σ} (hS : S.Fair) (d : Byte) : ∀ n (e : Bool) {x : Reader (σ × List Byte)}, WF x →
    (e = false → x.buf.length - (unread x).length + 2 ≤ n) → (e = true → 1 ≤ n ∧ x.eof = true) →
    ∃ ab y, untilLoop (logged S) d n e x = (.ok ab, y) ∧ Step x y (view y ab) ∧
      ((∃ pre, view y ab = pre ++ [d] ∧ d ∉ pre) ∨
        (d ∉ view y ab ∧ ((view y ab).length = y.buf.length ∨ (y.eof = true ∧ unread y = [])))) := by
  intro n
  induction n with
  | zero => intro e x _ h1 h2; cases e <;> simp_all
  | succ n ih =>
    intro e x h h1 h2
    rw [untilLoop]
    obtain ⟨s1, s2⟩ := scan_unread h (d := d)
    cases hs : scan x.buf d x.r (x.w - x.r) with
    | some k =>
      obtain ⟨pre, post, hu, hp, rfl⟩ := s1 k hs
      obtain ⟨f1, f2, f3⟩ := found h hu
      refine ⟨_, _, rfl, ?_, Or.inl ⟨pre, f2, hp⟩⟩
      refine advance h _ _ f1 rfl rfl ?_
      rw [f2, f3, hu]
      simp
    | none =>
      have hd := s2 hs
      obtain ⟨d1, d2⟩ := drained h
      show ∃ ab y, (if e = true then _ else _) = _ ∧ _
      cases e with
      | true =>
        refine ⟨(x.r, x.w), { x with r := x.w }, by rw [if_pos rfl], ?_, Or.inr ⟨?_, Or.inr ⟨(h2 rfl).2, d2⟩⟩⟩
        · refine advance h _ _ d1 rfl rfl ?_
          rw [view_all, d2, List.append_nil]
        · rw [view_all]; exact hd
      | false =>
        rw [if_neg (by simp)]
        by_cases hf : buffered x ≥ x.buf.length
        · rw [if_pos hf]
          obtain ⟨v1, v2⟩ := full_view h hf
          refine ⟨_, _, rfl, ?_, Or.inr ⟨?_, Or.inl ?_⟩⟩
          · refine advance h _ _ d1 rfl rfl ?_
            rw [v1, d2, List.append_nil]
          · rw [v1]; exact hd
          · rw [v1]; exact v2
        · rw [if_neg hf]
          have hl := unread_length h
          unfold buffered at hf
          obtain ⟨o, y, ef, st, hc⟩ := fill_step hS h (by omega)
          rw [ef]
          rcases hc with ⟨rfl, c, hc, hu, _⟩ | ⟨⟨er, rfl⟩, hu⟩
          · have hcl : 0 < c.length := by cases c with
              | nil => exact absurd rfl hc
              | cons _ _ => simp
            have hly := unread_length st.wf
            have hw := st.wf.wl
            obtain ⟨ab, z, ez, sz, hz⟩ := ih false st.wf (by
              intro _
              have := h1 rfl
              rw [hu, List.length_append, st.len]
              rw [hu, List.length_append] at hly
              have := st.len
              omega) (by simp)
            refine ⟨ab, z, ez, ?_, hz⟩
            have := st.trans sz
            simpa using this
          · have st' : Step x { y with eof := true } [] :=
              ⟨⟨st.wf.pos, st.wf.rw, st.wf.wl⟩, st.len, st.log⟩
            obtain ⟨ab, z, ez, sz, hz⟩ := ih true (x := { y with eof := true }) st'.wf (by simp)
              (fun _ => ⟨by have := h1 rfl; omega, rfl⟩)
            refine ⟨ab, z, ez, ?_, hz⟩
            have := st'.trans sz
            simpa using this

theorem readUntil_step {S : Src σ} (hS : S.Fair) (d : Byte) {x : Reader (σ × List Byte)} (h : WF x) :
    ∃ ab y, readUntil (logged S) x d = (.ok ab, y) ∧ Step x y (view y ab) ∧
      ((∃ pre, view y ab = pre ++ [d] ∧ d ∉ pre) ∨
        (d ∉ view y ab ∧ ((view y ab).length = y.buf.length ∨ (y.eof = true ∧ unread y = [])))) :=
  untilLoop_step hS d _ false h (fun _ => by omega) (by simp)

theorem take_unread {x : Reader σ} (h : WF x) (k : Nat) :
    WF { x with r := x.r + ((unread x).take k).length } ∧
      unread x = (unread x).take k ++ unread { x with r := x.r + ((unread x).take k).length } := by
  have h1 := h.rw
  have h2 := h.wl
  have hl := unread_length h
  refine ⟨⟨h.pos, ?_, h2⟩, ?_⟩
  · show x.r + ((unread x).take k).length ≤ x.w
    rw [List.length_take]; omega
  · show _ = _ ++ (x.buf.take x.w).drop (x.r + ((unread x).take k).length)
    rw [← List.drop_drop]
    show unread x = (unread x).take k ++ (unread x).drop ((unread x).take k).length
    by_cases hk : k ≤ (unread x).length
    · rw [List.length_take, Nat.min_eq_left hk, List.take_append_drop]
    · rw [List.take_of_length_le (by omega), List.drop_eq_nil_of_le (Nat.le_refl _), List.append_nil]

theorem read_step {S : Src σ} (hS : S.Fair) {x : Reader (σ × List Byte)} (h : WF x) (k : Nat) :
    ∃ o y, read (logged S) x k = (o, y) ∧
      ((∃ bs, o = .ok bs ∧ bs.length ≤ k ∧ Step x y bs ∧
          (bs = [] → k = 0 ∨ x.buf.length ≤ k)) ∨ (∃ e, o = .throw e ∧ Step x y [])) := by
  have h1 := h.rw
  have h2 := h.wl
  rw [read]
  by_cases hk : k = 0
  · rw [if_pos hk]
    by_cases hb : buffered x > 0
    · rw [if_pos hb]; exact ⟨_, _, rfl, Or.inl ⟨[], rfl, by simp, Step.refl h, fun _ => Or.inl hk⟩⟩
    · rw [if_neg hb]; exact ⟨_, _, rfl, Or.inr ⟨_, rfl, Step.quiet h rfl rfl rfl rfl⟩⟩
  · rw [if_neg hk]
    by_cases hrw : x.r = x.w
    · rw [if_pos hrw]
      have hu0 : unread x = [] := List.length_eq_zero_iff.1 (by rw [unread_length h]; omega)
      by_cases hkb : k ≥ x.buf.length
      · rw [if_pos hkb]
        cases hr : (logged S).read x.rd k with
        | mk o s =>
          cases o with
          | eof => exact ⟨_, _, rfl, Or.inr ⟨_, rfl, Step.quiet h rfl rfl rfl (logged_stop hr fun _ => by simp)⟩⟩
          | fail => exact ⟨_, _, rfl, Or.inr ⟨_, rfl, Step.quiet h rfl rfl rfl (logged_stop hr fun _ => by simp)⟩⟩
          | data bs =>
            refine ⟨_, _, rfl, Or.inl ⟨bs, rfl, logged_fair hS _ _ _ _ hr, ⟨⟨h.pos, h1, h2⟩, rfl, fun d hd => ?_⟩,
              fun _ => Or.inr hkb⟩⟩
            show s.2 = d ++ bs ++ unread x
            rw [logged_data hr, hd, hu0]; simp
      · rw [if_neg hkb]
        have hwy : WF { x with r := 0, w := 0 } := ⟨h.pos, Nat.le_refl _, Nat.zero_le _⟩
        have huy : unread { x with r := 0, w := 0 } = [] := by simp [unread]
        dsimp only
        cases hr : (logged S).read x.rd x.buf.length with
        | mk o s =>
          cases o with
          | eof =>
            refine ⟨_, _, rfl, Or.inr ⟨_, rfl, ⟨h.pos, Nat.le_refl _, Nat.zero_le _⟩, rfl, fun d hd => ?_⟩⟩
            show s.2 = d ++ [] ++ unread { x with r := 0, w := 0 }
            rw [logged_stop hr (by simp), hd, hu0, huy]; simp
          | fail =>
            refine ⟨_, _, rfl, Or.inr ⟨_, rfl, ⟨h.pos, Nat.le_refl _, Nat.zero_le _⟩, rfl, fun d hd => ?_⟩⟩
            show s.2 = d ++ [] ++ unread { x with r := 0, w := 0 }
            rw [logged_stop hr (by simp), hd, hu0, huy]; simp
          | data bs =>
            have hlen := logged_fair hS _ _ _ _ hr
            have hlog := logged_data hr
            have hlb : (bs ++ x.buf.drop bs.length).length = x.buf.length := by
              rw [List.length_append, List.length_drop]; omega
            by_cases hb0 : bs.length = 0
            · have hb0' := List.length_eq_zero_iff.1 hb0
              subst hb0'
              refine ⟨.throw .eof, ⟨s, x.buf, 0, 0, true⟩, by simp, Or.inr ⟨_, rfl,
                ⟨h.pos, Nat.le_refl _, Nat.zero_le _⟩, rfl, fun d hd => ?_⟩⟩
              show s.2 = d ++ [] ++ ((x.buf.take 0).drop 0)
              rw [hlog, hd, hu0]; simp
            · have gw : WF (⟨s, bs ++ x.buf.drop bs.length, 0, 0 + bs.length, x.eof⟩ : Reader (σ × List Byte)) :=
                ⟨by show 0 < (bs ++ x.buf.drop bs.length).length; have := h.pos; omega, Nat.zero_le _,
                  by show 0 + bs.length ≤ (bs ++ x.buf.drop bs.length).length; omega⟩
              have gu : unread (⟨s, bs ++ x.buf.drop bs.length, 0, 0 + bs.length, x.eof⟩ : Reader (σ × List Byte)) = bs := by
                show ((bs ++ x.buf.drop bs.length).take (0 + bs.length)).drop 0 = bs
                rw [Nat.zero_add, List.take_append_of_le_length (Nat.le_refl _), List.take_length, List.drop_zero]
              obtain ⟨t1, t2⟩ := take_unread gw k
              rw [gu] at t1 t2
              refine ⟨.ok (bs.take k), ⟨s, bs ++ x.buf.drop bs.length, 0 + (bs.take k).length, 0 + bs.length, x.eof⟩, ?_,
                Or.inl ⟨_, rfl, List.length_take_le .., ⟨t1, hlb, fun d hd => ?_⟩, fun hnil => ?_⟩⟩
              · simp only [if_neg hb0]
                have : (((bs ++ x.buf.drop bs.length).take (0 + bs.length)).drop 0).take k = bs.take k := by
                  have := gu
                  unfold unread at this
                  exact congrArg (List.take k) this
                rw [this]
              · show s.2 = _
                rw [hlog, hd, hu0, List.append_nil, List.append_assoc, ← t2]
              · cases bs with
                | nil => exact absurd rfl hb0
                | cons b t => cases k with
                  | zero => exact Or.inl rfl
                  | succ k => cases hnil
    · rw [if_neg hrw]
      obtain ⟨t1, t2⟩ := take_unread h k
      refine ⟨_, _, rfl, Or.inl ⟨(unread x).take k, rfl, List.length_take_le .., advance h _ _ t1 rfl rfl t2, fun hnil => ?_⟩⟩
      have hl := unread_length h
      cases hu : unread x with
      | nil => rw [hu] at hl; simp at hl; omega
      | cons b t =>
        rw [hu] at hnil
        cases k with
        | zero => exact Or.inl rfl
        | succ k => cases hnil

theorem head_unread {y : Reader (σ × List Byte)} (h : WF y) (hn : unread y ≠ []) :
    ∃ b, y.buf[y.r]? = some b ∧ Step y { y with r := y.r + 1 } [b] := by
  have h1 := h.rw
  have h2 := h.wl
  have hl := unread_length h
  have hlt : y.r < y.w := by
    cases hu : unread y with
    | nil => exact absurd hu hn
    | cons b t => rw [hu] at hl; simp at hl; omega
  have hlt' : y.r < y.buf.length := by omega
  refine ⟨y.buf[y.r], List.getElem?_eq_getElem hlt', advance h _ _ ⟨h.pos, ?_, h2⟩ rfl rfl ?_⟩
  · show y.r + 1 ≤ y.w
    omega
  · show (y.buf.take y.w).drop y.r = [y.buf[y.r]] ++ (y.buf.take y.w).drop (y.r + 1)
    have hlt2 : y.r < (y.buf.take y.w).length := by rw [List.length_take]; omega
    rw [List.drop_eq_getElem_cons hlt2, List.getElem_take]
    rfl

theorem readByte_step {S : Src σ} (hS : S.Fair) {x : Reader (σ × List Byte)} (h : WF x) :
    ∃ o y, readByte (logged S) x = (o, y) ∧
      ((∃ b, o = .ok b ∧ Step x y [b]) ∨ (∃ e, o = .throw e ∧ Step x y [])) := by
  have h1 := h.rw
  have h2 := h.wl
  have hl := unread_length h
  rw [readByte]
  by_cases hrw : x.r = x.w
  · simp only [if_pos hrw]
    obtain ⟨o, y, ef, st, hc⟩ := fill_step hS h (by have := h.pos; omega)
    rw [ef]
    rcases hc with ⟨rfl, c, hc, hu, _⟩ | ⟨⟨e, rfl⟩, _⟩
    · obtain ⟨b, e1, s1⟩ := head_unread st.wf (by rw [hu]; simp [hc])
      refine ⟨.ok b, { y with r := y.r + 1 }, ?_, Or.inl ⟨b, rfl, ?_⟩⟩
      · simp only [e1]
      · simpa using st.trans s1
    · exact ⟨_, _, rfl, Or.inr ⟨e, rfl, st⟩⟩
  · simp only [if_neg hrw]
    obtain ⟨b, e1, s1⟩ := head_unread h (by
      intro h0; rw [h0] at hl; simp at hl; omega)
    refine ⟨.ok b, { x with r := x.r + 1 }, ?_, Or.inl ⟨b, rfl, s1⟩⟩
    simp only [e1]

theorem exactLoop_step {S : Src σ} (hS : S.Fair) (k : Nat) : ∀ n acc {x : Reader (σ × List Byte)}, WF x → acc.length ≤ k →
    ∃ bs o y, exactLoop (logged S) n k acc x = (acc ++ bs, o, y) ∧ Step x y bs ∧ o ≠ .panic ∧
      (acc ++ bs).length ≤ k ∧ (o = .ok () → (acc ++ bs).length = k) := by
  intro n
  induction n with
  | zero =>
    intro acc x h ha
    rw [exactLoop]
    by_cases hk : acc.length < k
    · rw [if_pos hk]
      exact ⟨[], _, _, by rw [List.append_nil], Step.refl h, by simp, by simpa using ha, by simp⟩
    · rw [if_neg hk]
      exact ⟨[], _, _, by rw [List.append_nil], Step.refl h, by simp, by simpa using ha, by simp; omega⟩
  | succ n ih =>
    intro acc x h ha
    rw [exactLoop]
    by_cases hk : acc.length < k
    · rw [if_pos hk]
      obtain ⟨o, y, e, hc⟩ := read_step hS h (k - acc.length)
      rw [e]
      rcases hc with ⟨bs, rfl, hl, st, _⟩ | ⟨er, rfl, st⟩
      · obtain ⟨cs, o, z, e2, st2, hp, hl2, ho⟩ := ih (acc ++ bs) st.wf (by rw [List.length_append]; omega)
        refine ⟨bs ++ cs, o, z, ?_, st.trans st2, hp, ?_, ?_⟩
        · simp only [e2, List.append_assoc]
        · rw [← List.append_assoc]; exact hl2
        · rw [← List.append_assoc]; exact ho
      · exact ⟨[], _, _, by rw [List.append_nil], st, by simp, by simpa using ha, by simp⟩
    · rw [if_neg hk]
      exact ⟨[], _, _, by rw [List.append_nil], Step.refl h, by simp, by simpa using ha, by simp; omega⟩

end Nature.BufIo
