import Verif.BufIo.Lemmas
namespace Nature.BufIo
variable {σ : Type}

/-! ### Cutting into lines -/

theorem splitAfter_found {d : Byte} (pre rest : List Byte) (h : d ∉ pre) :
    splitAfter d (pre ++ d :: rest) = (pre ++ [d]) :: splitAfter d rest := by
  induction pre with
  | nil => simp [splitAfter]
  | cons b t ih =>
    have hb : b ≠ d := fun e => h (by simp [e])
    rw [List.cons_append, splitAfter, if_neg hb, ih fun hm => h (by simp [hm])]
    rfl

theorem splitAfter_last {d : Byte} (pre : List Byte) (h : d ∉ pre) (hn : pre ≠ []) : splitAfter d pre = [pre] := by
  induction pre with
  | nil => exact absurd rfl hn
  | cons b t ih =>
    have hb : b ≠ d := fun e => h (by simp [e])
    rw [splitAfter, if_neg hb]
    cases t with
    | nil => rfl
    | cons c t => rw [ih (fun hm => h (List.mem_cons_of_mem _ hm)) (by simp)]

theorem suffix_one {l : List Byte} {a : Byte} : [a] <:+ l ↔ l.getLast? = some a := by
  constructor
  · rintro ⟨t, rfl⟩; simp
  · intro h
    obtain ⟨t, rfl⟩ := List.getLast?_eq_some_iff.1 h
    exact ⟨t, rfl⟩

theorem strip_chomp (l : List Byte) : strip l = chomp l := by
  rw [strip, chomp]
  by_cases h : l.getLast? = some 10
  · obtain ⟨t, rfl⟩ := List.getLast?_eq_some_iff.1 h
    rw [if_pos h]
    show (if (t ++ [10]).dropLast.getLast? = some 13 then (t ++ [10]).dropLast.dropLast else (t ++ [10]).dropLast) = _
    rw [List.dropLast_concat]
    by_cases h2 : t.getLast? = some 13
    · obtain ⟨u, rfl⟩ := List.getLast?_eq_some_iff.1 h2
      rw [if_pos h2, if_pos ⟨u, by simp⟩, List.dropLast_concat]
      simp
    · rw [if_neg h2, if_neg, if_pos (suffix_one.2 h)]
      · simp
      · rintro ⟨u, hu⟩
        have : u ++ [13] = t := by
          have e : (u ++ [13]) ++ [10] = t ++ [10] := by rw [← hu]; simp
          exact List.append_cancel_right e
        rw [← this] at h2
        simp at h2
  · rw [if_neg h, if_neg, if_neg]
    · intro hs; exact h (suffix_one.1 hs)
    · rintro ⟨u, hu⟩
      apply h
      rw [← hu]; simp

/-- What `strip` takes off. -/
theorem strip_ends (l : List Byte) : ∃ e, l = strip l ++ e ∧ (e = [] ∨ e = [10] ∨ e = [13, 10]) := by
  rw [strip]
  by_cases h : l.getLast? = some 10
  · obtain ⟨t, rfl⟩ := List.getLast?_eq_some_iff.1 h
    rw [if_pos h]
    show ∃ e, t ++ [10] = (if (t ++ [10]).dropLast.getLast? = some 13 then (t ++ [10]).dropLast.dropLast
      else (t ++ [10]).dropLast) ++ e ∧ _
    rw [List.dropLast_concat]
    by_cases h2 : t.getLast? = some 13
    · obtain ⟨u, rfl⟩ := List.getLast?_eq_some_iff.1 h2
      rw [if_pos h2, List.dropLast_concat]
      exact ⟨[13, 10], by simp, by simp⟩
    · rw [if_neg h2]
      exact ⟨[10], rfl, by simp⟩
  · rw [if_neg h]
    exact ⟨[], by simp, Or.inl rfl⟩

/-! ### Reading from a source that feeds some data -/

theorem fillLoop_feeds {S : Src σ} : ∀ n {x : Reader σ} {data}, WF x → x.w < x.buf.length → Feeds S n x.rd data →
    ∃ o y, fillLoop S n x = (o, y) ∧ WF y ∧ y.buf.length = x.buf.length ∧
      ((o = .ok () ∧ y.eof = x.eof ∧ ∃ c rest, c ≠ [] ∧ data = c ++ rest ∧ unread y = unread x ++ c ∧ Feeds S 100 y.rd rest) ∨
        ((∃ e, o = .throw e) ∧ data = [] ∧ unread y = unread x)) := by
  intro n
  induction n with
  | zero =>
    intro x data h _ hf
    cases hf
    exact ⟨_, x, rfl, h, rfl, Or.inr ⟨⟨_, rfl⟩, rfl, rfl⟩⟩
  | succ n ih =>
    intro x data h hw hf
    have hpos : 0 < x.buf.length - x.w := by omega
    rw [fillLoop]
    cases hf with
    | stop _ _ hs =>
      cases hr : S.read x.rd (x.buf.length - x.w) with
      | mk o s =>
        have := hs _ hpos
        rw [hr] at this
        rcases this with h1 | h1
        · have h1 : o = .eof := h1
          subst h1
          exact ⟨_, _, rfl, ⟨h.pos, h.rw, h.wl⟩, rfl, Or.inr ⟨⟨_, rfl⟩, rfl, rfl⟩⟩
        · have h1 : o = .fail := h1
          subst h1
          exact ⟨_, _, rfl, ⟨h.pos, h.rw, h.wl⟩, rfl, Or.inr ⟨⟨_, rfl⟩, rfl, rfl⟩⟩
    | empty _ _ _ next hs hn =>
      rw [hs _ hpos]
      show ∃ o y, (if ([] : List Byte).length > 0 then _ else fillLoop S n (tailPut x (next (x.buf.length - x.w)) [])) = (o, y) ∧ _
      rw [if_neg (by simp)]
      obtain ⟨g1, g2, g3, g4, g5, g6, g7⟩ := grown h [] (by simp; omega) (next (x.buf.length - x.w))
      obtain ⟨o, y, e, w1, l1, hc⟩ := ih g1 (by rw [g7, g3]; exact hw) (by rw [g4]; exact hn _ hpos)
      rw [g2, List.append_nil, g5] at hc
      exact ⟨o, y, e, w1, l1.trans g3, hc⟩
    | chunk _ _ _ c rest next hs hn =>
      obtain ⟨c1, c2, c3, c4⟩ := hs _ hpos
      rw [c4]
      obtain ⟨g1, g2, g3, g4, g5, g6, g7⟩ := grown h (c (x.buf.length - x.w)) (by omega) (next (x.buf.length - x.w))
      show ∃ o y, (if (c (x.buf.length - x.w)).length > 0 then
        (Out.ok (), tailPut x (next (x.buf.length - x.w)) (c (x.buf.length - x.w))) else _) = (o, y) ∧ _
      rw [if_pos (List.length_pos_iff.2 c1)]
      exact ⟨_, _, rfl, g1, g3, Or.inl ⟨rfl, g5, _, _, c1, c3, g2, by rw [g4]; exact hn _ hpos⟩⟩

theorem fill_feeds {S : Src σ} {x : Reader σ} {data} (h : WF x) (hw : (unread x).length < x.buf.length)
    (hf : Feeds S 100 x.rd data) :
    ∃ o y, fill S x = (o, y) ∧ WF y ∧ y.buf.length = x.buf.length ∧
      ((o = .ok () ∧ y.eof = x.eof ∧ ∃ c rest, c ≠ [] ∧ data = c ++ rest ∧ unread y = unread x ++ c ∧ Feeds S 100 y.rd rest) ∨
        ((∃ e, o = .throw e) ∧ data = [] ∧ unread y = unread x)) := by
  obtain ⟨c1, c2, c3, c4, c5, c6, c7⟩ := compact_spec h
  have hl := unread_length h
  obtain ⟨o, y, e, w1, l1, hc⟩ := fillLoop_feeds 100 c1 (by rw [c6, c3]; omega) (by rw [c4]; exact hf)
  refine ⟨o, y, ?_, w1, l1.trans c3, ?_⟩
  · rw [fill_eq, if_neg (by rw [c6, c3]; omega)]; exact e
  · rw [c2, c5] at hc; exact hc

/-- Ready to give the lines of `data`. -/
structure Ready (S : Src σ) (x : Reader σ) (data : List Byte) : Prop where
  wf : WF x
  eof : x.eof = false
  feeds : ∃ rest, data = unread x ++ rest ∧ Feeds S 100 x.rd rest

theorem first_at {d : Byte} {l : List Byte} (h : d ∈ l) : ∃ p q, l = p ++ d :: q ∧ d ∉ p := by
  induction l with
  | nil => cases h
  | cons b t ih =>
    by_cases hb : b = d
    · exact ⟨[], t, by rw [hb]; rfl, by simp⟩
    · have ht : d ∈ t := by
        rcases List.mem_cons.1 h with h | h
        · exact absurd h.symm hb
        · exact h
      obtain ⟨p, q, h1, h2⟩ := ih ht
      refine ⟨b :: p, q, by rw [h1]; rfl, ?_⟩
      intro hm
      rcases List.mem_cons.1 hm with h | h
      · exact hb h.symm
      · exact h2 h

/-- After a failed fill, no line end in the buffer. -/
theorem until_err {S : Src σ} {x : Reader σ} (h : WF x) (n : Nat) (hd : 10 ∉ unread x) :
    untilLoop S 10 (n + 1) true x = (.ok (x.r, x.w), { x with r := x.w }) := by
  rw [untilLoop]
  cases hs : scan x.buf 10 x.r (x.w - x.r) with
  | some k =>
    obtain ⟨pre, post, hu, _, _⟩ := (scan_unread h).1 k hs
    exact absurd (by rw [hu]; simp) hd
  | none => rfl

theorem until_feeds {S : Src σ} {B : Nat} : ∀ n {x : Reader σ} {data}, Ready S x data → x.buf.length = B →
    B - (unread x).length + 2 ≤ n → (∀ l ∈ splitAfter 10 data, l.length ≤ B) →
    ∃ ab y, untilLoop S 10 n false x = (.ok ab, y) ∧ y.buf.length = B ∧
      ((∃ pre post, data = pre ++ 10 :: post ∧ 10 ∉ pre ∧ view y ab = pre ++ [10] ∧ Ready S y post) ∨
        (10 ∉ data ∧ view y ab = data ∧ (y.eof = true ∨ (data ≠ [] ∧ Ready S y [])))) := by
  intro n
  induction n with
  | zero => intro x data _ _ h; omega
  | succ n ih =>
    intro x data R hB hn hl
    have h := R.wf
    obtain ⟨rest, hdata, hf⟩ := R.feeds
    have hlu := unread_length h
    rw [untilLoop]
    cases hs : scan x.buf 10 x.r (x.w - x.r) with
    | some k =>
      obtain ⟨pre, post, hu, hp, rfl⟩ := (scan_unread h).1 k hs
      obtain ⟨f1, f2, f3⟩ := found h hu
      refine ⟨_, _, rfl, hB, Or.inl ⟨pre, post ++ rest, ?_, hp, f2, f1, R.eof, rest, ?_, hf⟩⟩
      · rw [hdata, hu]; simp
      · rw [f3]
    | none =>
      have hd := (scan_unread h).2 hs
      obtain ⟨d1, d2⟩ := drained h
      show ∃ ab y, (if false = true then _ else _) = _ ∧ _
      rw [if_neg (by simp)]
      by_cases hfull : buffered x ≥ x.buf.length
      · rw [if_pos hfull]
        obtain ⟨v1, v2⟩ := full_view h hfull
        -- the buffer holds the whole last line
        have hrest : rest = [] := by
          by_cases hr : 10 ∈ rest
          · obtain ⟨p, q, hpq, hnp⟩ := first_at hr
            have : data = (unread x ++ p) ++ 10 :: q := by rw [hdata, hpq]; simp
            have hm : (unread x ++ p) ++ [10] ∈ splitAfter 10 data := by
              rw [this, splitAfter_found _ _ (by simp [hd, hnp])]; simp
            have := hl _ hm
            simp only [List.length_append, List.length_singleton] at this
            omega
          · have hn0 : data ≠ [] := by
              intro h0
              have := congrArg List.length (h0.symm.trans hdata)
              simp only [List.length_nil, List.length_append] at this
              have := h.pos
              omega
            have hm : data ∈ splitAfter 10 data := by
              rw [splitAfter_last data (by rw [hdata]; simp [hd, hr]) hn0]; simp
            have := hl _ hm
            rw [hdata, List.length_append] at this
            exact List.length_eq_zero_iff.1 (by omega)
        subst hrest
        rw [List.append_nil] at hdata
        refine ⟨_, _, rfl, hB, Or.inr ⟨by rw [hdata]; exact hd, by rw [v1, hdata], Or.inr ⟨?_, d1, R.eof, [], by rw [d2]; rfl, hf⟩⟩⟩
        intro h0
        rw [← hdata, h0] at v2
        have := h.pos
        simp at v2
        omega
      · rw [if_neg hfull]
        unfold buffered at hfull
        obtain ⟨o, y, ef, w1, l1, hc⟩ := fill_feeds h (by omega) hf
        rw [ef]
        rcases hc with ⟨rfl, he, c, rest2, hc0, hrest, hu, hf2⟩ | ⟨⟨e, rfl⟩, hrest, hu⟩
        · have hcl : 0 < c.length := List.length_pos_iff.2 hc0
          have hly := unread_length w1
          have hwl := w1.wl
          have R2 : Ready S y data := ⟨w1, he.trans R.eof, rest2, by rw [hdata, hrest, hu]; simp, hf2⟩
          refine ih R2 (l1.trans hB) ?_ hl
          rw [hu, List.length_append] at hly ⊢
          omega
        · have w2 : WF { y with eof := true } := ⟨w1.pos, w1.rw, w1.wl⟩
          have hu2 : unread { y with eof := true } = unread x := hu
          subst hrest
          rw [List.append_nil] at hdata
          obtain ⟨m, rfl⟩ : ∃ m, n = m + 1 := ⟨n - 1, by omega⟩
          refine ⟨_, _, until_err w2 m (by rw [hu2]; exact hd), l1.trans hB, Or.inr ⟨by rw [hdata]; exact hd, ?_, Or.inl rfl⟩⟩
          rw [hdata]
          exact hu2

theorem chomp_eq (l : List Byte) : strip l = chomp l := strip_chomp l

theorem readLine_eof {S : Src σ} {x : Reader σ} (h : x.eof = true) : readLine S x = (.throw .eof, x) := by
  rw [readLine, if_pos h]

theorem readLines_eof {S : Src σ} {x : Reader σ} (h : x.eof = true) (n : Nat) :
    readLines S n x = List.replicate n (Out.throw .eof) := by
  induction n with
  | zero => rfl
  | succ n ih => rw [readLines, readLine_eof h, ih, List.replicate_succ]

theorem take_eofs (a : Out (List Byte)) (ls : List (Out (List Byte))) (n : Nat) :
    (a :: ls ++ List.replicate (n + 1) (Out.throw .eof)).take (n + 1) =
      a :: (ls ++ List.replicate n (Out.throw .eof)).take n := by
  rw [List.cons_append, List.take_succ_cons]
  congr 1
  rw [List.replicate_succ', ← List.append_assoc]
  exact List.take_append_of_le_length (by simp)

theorem readLines_feeds {S : Src σ} {B : Nat} : ∀ n {x : Reader σ} {data}, Ready S x data → x.buf.length = B →
    (∀ l ∈ splitAfter 10 data, l.length ≤ B) →
    readLines S n x = ((lines data).map Out.ok ++ List.replicate n (Out.throw .eof)).take n := by
  intro n
  induction n with
  | zero => intros; rfl
  | succ n ih =>
    intro x data R hB hl
    obtain ⟨ab, y, e, yB, hc⟩ := until_feeds (x.buf.length + 2) R hB (by omega) hl
    have hrl : readLine S x = if y.eof ∧ (view y ab).length = 0 then (.throw .eof, y) else (.ok (strip (view y ab)), y) := by
      rw [readLine, if_neg (by rw [R.eof]; simp), readUntil, e]
    rcases hc with ⟨pre, post, hdata, hp, hv, R2⟩ | ⟨h10, hv, hend⟩
    · have e1 : readLine S x = (.ok (chomp (pre ++ [10])), y) := by
        rw [hrl, if_neg (by rw [R2.eof]; simp), hv, strip_chomp]
      have hsp : splitAfter 10 data = (pre ++ [10]) :: splitAfter 10 post := by rw [hdata, splitAfter_found _ _ hp]
      rw [readLines, e1, lines, hsp]
      show _ :: readLines S n y = _
      rw [ih R2 yB (fun l hm => hl l (by rw [hsp]; simp [hm]))]
      exact (take_eofs _ _ n).symm
    · by_cases h0 : data = []
      · subst h0
        rcases hend with he | ⟨hne, _⟩
        · have e1 : readLine S x = (.throw .eof, y) := by
            rw [hrl, if_pos ⟨he, by rw [hv]; rfl⟩]
          rw [readLines, e1]
          show _ :: readLines S n y = _
          rw [readLines_eof he, ← List.replicate_succ]
          show _ = (List.replicate (n + 1) _).take (n + 1)
          rw [List.take_of_length_le (by simp)]
        · exact absurd rfl hne
      · have hlen : (view y ab).length ≠ 0 := by rw [hv]; exact fun h => h0 (List.length_eq_zero_iff.1 h)
        have e1 : readLine S x = (.ok (chomp data), y) := by
          rw [hrl, if_neg (fun h => hlen h.2), hv, strip_chomp]
        have hsp : splitAfter 10 data = [data] := splitAfter_last data h10 h0
        rw [readLines, e1, lines, hsp]
        show _ :: readLines S n y = _
        have hrest : readLines S n y = ([] ++ List.replicate n (Out.throw .eof)).take n := by
          rcases hend with he | ⟨_, R2⟩
          · rw [readLines_eof he, List.nil_append, List.take_of_length_le (by simp)]
          · exact ih R2 yB (by simp [splitAfter])
        rw [hrest]
        exact (take_eofs _ [] n).symm

end Nature.BufIo
